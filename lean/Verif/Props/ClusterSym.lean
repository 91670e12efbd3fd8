import Verif.Props.HAC
import Verif.Props.KMeans

/-! # C134: clustering does not depend on the zero direction -/

set_option autoImplicit false

namespace Verif.Props

open Real Verif Verif.Spec

/-- Specification: the second angle is the first, turned by `t` (up to whole turns). -/
def Turn (t : ℝ) (x y : ℝ) : Prop := SameDir y (x + t)

/-- Specification: both are undefined, or the second is the first turned by `t`. -/
def TurnNan (t : ℝ) (x y : Option ℝ) : Prop :=
  (x = none ∧ y = none) ∨ ∃ a b, x = some a ∧ y = some b ∧ Turn t a b

lemma turn_sub {t x x' y y' : ℝ} (hx : Turn t x x') (hy : Turn t y y') : SameDir (x' - y') (x - y) := by
  have := CongMod.sub hx hy
  rwa [add_sub_add_right_eq_sub] at this

/-- Turning all angles turns the mean direction and leaves the resultant length. -/
lemma meanR_turn {t : ℝ} {alpha beta : List ℝ} (h : List.Forall₂ (Turn t) alpha beta) (w : List ℝ) :
    (circMeanAndR alpha w = none ∧ circMeanAndR beta w = none) ∨
      ∃ m m' r, circMeanAndR alpha w = some (m, r) ∧ circMeanAndR beta w = some (m', r) ∧ TurnNan t m m' := by
  have hmom : moment beta w 1 = Complex.exp ((t : ℝ) * Complex.I) * moment alpha w 1 := by
    have h' : List.Forall₂ SameDir beta (alpha.map (· + t)) := by
      rw [List.forall₂_map_right_iff]
      exact h.flip
    rw [moment_congr h', moment_rotate]
    simp
  have hn : ‖moment beta w 1‖ = ‖moment alpha w 1‖ := by
    rw [hmom, norm_mul, Complex.norm_exp_ofReal_mul_I, one_mul]
  rw [circMeanAndR_eq, circMeanAndR_eq]
  by_cases hw : w.sum = 0
  · simp [hw]
  · rw [if_neg hw, if_neg hw, hn]
    refine Or.inr ⟨_, _, _, rfl, rfl, ?_⟩
    by_cases hr : ‖moment alpha w 1‖ ≤ 1 / 10 ^ 12
    · rw [if_pos hr, if_pos hr]
      exact Or.inl ⟨rfl, rfl⟩
    · rw [if_neg hr, if_neg hr]
      refine Or.inr ⟨_, _, rfl, rfl, ?_⟩
      have hpos : 0 < ‖moment alpha w 1‖ := lt_of_lt_of_le (by positivity) (not_le.1 hr).le
      have hb : moment beta w 1 = (‖moment alpha w 1‖ : ℝ) *
          Complex.exp ((Complex.arg (moment alpha w 1) + t : ℝ) * Complex.I) := by
        rw [hmom]
        conv_lhs => rw [← Complex.norm_mul_exp_arg_mul_I (moment alpha w 1)]
        rw [mul_left_comm, ← Complex.exp_add]
        congr 2
        push_cast; ring
      have h1 := arg_sameDir_of_polar hpos hb
      unfold Turn
      exact (angmod2pi_cong _).trans (h1.trans ((angmod2pi_cong _).symm.add (CongMod.refl _ _)))

lemma meanR_mem {alpha w : List ℝ} {m r : ℝ} (h : circMeanAndR alpha w = some (some m, r)) : 0 ≤ m ∧ m < 2 * π := by
  rw [circMeanAndR_eq] at h
  split_ifs at h with h1 h2
  · simp at h
  · simp only [Option.some.injEq, Prod.mk.injEq] at h
    rw [← h.1]
    exact ⟨angmod2pi_nonneg _, angmod2pi_lt _⟩

/-- All metrics see the difference of directions only; the geodesic one needs angles within one turn. -/
lemma hacDist_turn {metric : String} {t x x' y y' : ℝ} (hx : Turn t x x') (hy : Turn t y y')
    (hg : metric = "geodesic" → |x - y| ≤ 2 * π ∧ |x' - y'| ≤ 2 * π) :
    hacDist metric x' y' = hacDist metric x y := by
  have hd := turn_sub hx hy
  by_cases hm : metric = "geodesic"
  · obtain ⟨d, h1, h2⟩ := C17_geodesic_isArcDist x y (hg hm).1
    obtain ⟨d', h1', h2'⟩ := C17_geodesic_isArcDist x' y' (hg hm).2
    have h3 : IsArcDist d' x y := by
      obtain ⟨⟨k, hk⟩, hl⟩ := h2'
      obtain ⟨j, hj⟩ := hd
      refine ⟨⟨j + k, by rw [hk, hj]; congr 1; push_cast; ring⟩, fun i => (hl (i - j)).trans (le_of_eq ?_)⟩
      rw [hj]; congr 1; push_cast; ring
    rw [hacDist, hacDist, hm, h1, h1', isArcDist_unique h2 h3]
  · rw [hacDist, hacDist]
    have : circDist x' y' metric = circDist x y metric := by
      rw [C25_periodic x' (x + t) y' (y + t) metric hm hx hy]
      unfold circDist
      rw [if_neg hm, if_neg hm, add_sub_add_right_eq_sub]
      have : Complex.exp (Complex.I * (x + t : ℝ)) / Complex.exp (Complex.I * (y + t : ℝ)) =
          Complex.exp (Complex.I * x) / Complex.exp (Complex.I * y) := by
        rw [← Complex.exp_sub, ← Complex.exp_sub]
        congr 1; push_cast; ring
      simp only [this]
    rw [this]

/-! ## Hierarchical clustering -/

private def InRange (n : ℕ) (c : Cluster) : Prop := ∀ i ∈ c.2, i < n

private lemma sub_turn {t : ℝ} {alpha beta : List ℝ} (h : List.Forall₂ (Turn t) alpha beta) {l : List ℕ}
    (hl : ∀ i ∈ l, i < alpha.length) :
    List.Forall₂ (Turn t) (l.map fun i => alpha.getD i 0) (l.map fun i => beta.getD i 0) := by
  rw [List.forall₂_map_left_iff, List.forall₂_map_right_iff, List.forall₂_same]
  intro i hi
  have h1 := hl i hi
  have h2 : i < beta.length := h.length_eq ▸ h1
  rw [List.getD_eq_getElem?_getD, List.getD_eq_getElem?_getD, List.getElem?_eq_getElem h1, List.getElem?_eq_getElem h2]
  exact h.get h1 h2

private lemma sub_ones {t : ℝ} {a b : List ℝ} (h : List.Forall₂ (Turn t) a b) : ones b = ones a := by
  simp only [ones, List.map_const', h.length_eq]

lemma clusterMean_turn {t : ℝ} {alpha beta : List ℝ} (h : List.Forall₂ (Turn t) alpha beta) {l : List ℕ}
    (hl : ∀ i ∈ l, i < alpha.length) : TurnNan t (clusterMean alpha l) (clusterMean beta l) := by
  have hs := sub_turn h hl
  simp only [clusterMean]
  rw [sub_ones hs]
  rcases meanR_turn hs (ones _) with ⟨h1, h2⟩ | ⟨m, m', r, h1, h2, h3⟩
  · rw [h1, h2]; exact Or.inl ⟨rfl, rfl⟩
  · rw [h1, h2]; exact h3

private lemma clusterMean_range {alpha : List ℝ} {l : List ℕ} {a : ℝ} (h : clusterMean alpha l = some a) :
    0 ≤ a ∧ a < 2 * π := by
  simp only [clusterMean, Option.bind_eq_some_iff] at h
  obtain ⟨⟨m, r⟩, h1, h2⟩ := h
  simp only at h2
  subst h2
  exact meanR_mem h1

private lemma clusterDist_turn {metric : String} {t : ℝ} {alpha beta : List ℝ} (h : List.Forall₂ (Turn t) alpha beta)
    {x y : Cluster} (hx : InRange alpha.length x) (hy : InRange alpha.length y) :
    clusterDist metric beta x y = clusterDist metric alpha x y := by
  have r1 := fun a => clusterMean_range (alpha := alpha) (l := x.2) (a := a)
  have r2 := fun a => clusterMean_range (alpha := alpha) (l := y.2) (a := a)
  have r3 := fun a => clusterMean_range (alpha := beta) (l := x.2) (a := a)
  have r4 := fun a => clusterMean_range (alpha := beta) (l := y.2) (a := a)
  unfold clusterDist
  rcases clusterMean_turn h hx with ⟨h1, h2⟩ | ⟨a, b, h1, h2, h3⟩
  · rw [h1, h2]
  · rcases clusterMean_turn h hy with ⟨g1, g2⟩ | ⟨c, d, g1, g2, g3⟩
    · rw [h1, h2, g1, g2]
    · obtain ⟨p1, p2⟩ := r1 _ h1
      obtain ⟨p3, p4⟩ := r2 _ g1
      obtain ⟨p5, p6⟩ := r3 _ h2
      obtain ⟨p7, p8⟩ := r4 _ g2
      rw [h1, h2, g1, g2]
      simp only [Option.some.injEq]
      exact hacDist_turn h3 g3 fun _ => ⟨abs_le.2 ⟨by linarith, by linarith⟩, abs_le.2 ⟨by linarith, by linarith⟩⟩

private lemma listPairs_mem {α : Type} : ∀ {l : List α} {p : α × α}, p ∈ listPairs l → p.1 ∈ l ∧ p.2 ∈ l
  | [], _, h => by simp [listPairs] at h
  | x :: xs, p, h => by
    simp only [listPairs, List.mem_append, List.mem_map] at h
    rcases h with ⟨y, hy, rfl⟩ | h
    · exact ⟨by simp, by simp [hy]⟩
    · have := listPairs_mem h
      exact ⟨by simp [this.1], by simp [this.2]⟩

private lemma bestPair_congr {α : Type} {d d' : α → α → Option ℝ} {l : List α}
    (h : ∀ x ∈ l, ∀ y ∈ l, d' x y = d x y) : bestPair d' l = bestPair d l := by
  unfold bestPair
  have : ∀ (ps : List (α × α)) b, (∀ p ∈ ps, d' p.1 p.2 = d p.1 p.2) →
      ps.foldl (pairStep d') b = ps.foldl (pairStep d) b := by
    intro ps
    induction ps with
    | nil => intro _ _; rfl
    | cons p ps ih =>
      intro b hp
      rw [List.foldl_cons, List.foldl_cons, ih _ fun q hq => hp q (by simp [hq])]
      congr 1
      unfold pairStep
      rw [hp p (by simp)]
  exact this _ _ fun p hp => h _ (listPairs_mem hp).1 _ (listPairs_mem hp).2

private lemma hacLoop_turn {n : ℕ} {d d' : Cluster → Cluster → Option ℝ}
    (h : ∀ x y, InRange n x → InRange n y → d' x y = d x y) (k : ℕ) :
    ∀ (fuel next : ℕ) (cl : List Cluster) (ms : List Merge), (∀ c ∈ cl, InRange n c) →
      hacLoop d' k fuel next cl ms = hacLoop d k fuel next cl ms ∧
        ∀ c ∈ (hacLoop d k fuel next cl ms).1, InRange n c := by
  intro fuel
  induction fuel with
  | zero => intro next cl ms hc; exact ⟨rfl, hc⟩
  | succ fuel ih =>
    intro next cl ms hc
    rw [hacLoop, hacLoop]
    split_ifs with hk
    · exact ⟨rfl, hc⟩
    · rw [bestPair_congr fun x hx y hy => h x y (hc x hx) (hc y hy)]
      cases hb : bestPair d cl with
      | none => exact ⟨rfl, hc⟩
      | some o =>
        obtain ⟨e, x, y⟩ := o
        have hs := (bestPair_some hb).2.1
        have hx : x ∈ cl := hs.subset (by simp)
        have hy : y ∈ cl := hs.subset (by simp)
        refine ih _ _ _ fun c hcm => ?_
        rcases List.mem_append.1 hcm with h1 | h1
        · exact hc c (List.mem_filter.1 h1).1
        · rw [List.mem_singleton] at h1
          subst h1
          intro i hi
          rcases List.mem_append.1 hi with h2 | h2
          · exact hc x hx i h2
          · exact hc y hy i h2

private lemma hacInit_range (n : ℕ) (pre : Option (ℕ × List ℕ)) : ∀ c ∈ hacInit n pre, InRange n c := by
  have hs : ∀ c ∈ (List.range n).map (fun i => ((i, [i]) : Cluster)), InRange n c := by
    intro c hc
    obtain ⟨i, hi, rfl⟩ := List.mem_map.1 hc
    intro j hj
    simp only [List.mem_singleton] at hj
    rw [hj]; exact List.mem_range.1 hi
  unfold hacInit
  cases pre with
  | none => exact hs
  | some p =>
    obtain ⟨m, labels⟩ := p
    simp only
    split_ifs
    · exact hs
    · exact hs
    · intro c hc
      obtain ⟨a, -, ha⟩ := List.mem_filterMap.1 hc
      split_ifs at ha
      cases ha
      intro i hi
      exact List.mem_range.1 (List.mem_filter.1 hi).1

/-- **C134.** Turning all angles (in whatever turn they are then written) leaves the labels, the merges with their
heights and the resultant lengths of hierarchical clustering as they are and turns the centres. -/
theorem C134_hac {metric : String} {k : ℕ} {pre : Option (ℕ × List ℕ)} {t : ℝ} {alpha beta : List ℝ}
    (h : List.Forall₂ (Turn t) alpha beta) {r : HACResult} (hr : hacFit metric k pre alpha = .ok r) :
    ∃ r', hacFit metric k pre beta = .ok r' ∧ r'.labels = r.labels ∧ r'.merges = r.merges ∧ r'.r = r.r ∧
      List.Forall₂ (TurnNan t) r.centers r'.centers := by
  have hlen := h.length_eq
  unfold hacFit at hr ⊢
  simp only [← hlen] at hr ⊢
  split_ifs at hr ⊢ with h0 h1
  · cases hr
    refine ⟨_, rfl, rfl, rfl, ?_, ?_⟩
    · simp only [List.map_const', hlen]
    · simp only [List.forall₂_map_left_iff, List.forall₂_map_right_iff]
      exact h.imp fun a b hab => Or.inr ⟨a, b, rfl, rfl, hab⟩
  · cases hr
    obtain ⟨e1, e2⟩ := hacLoop_turn (n := alpha.length) (d := clusterDist metric alpha) (d' := clusterDist metric beta)
      (fun x y hx hy => clusterDist_turn h hx hy) k (hacInit alpha.length pre).length
      (((hacInit alpha.length pre).map Prod.fst).foldl max 0 + 1) (hacInit alpha.length pre) []
      (hacInit_range _ _)
    refine ⟨_, rfl, ?_, ?_, ?_, ?_⟩
    · simp only [e1]
    · simp only [e1]
    · simp only [e1]
      refine List.map_congr_left fun c hc => ?_
      have hs := sub_turn h (e2 c hc)
      rw [sub_ones hs]
      rcases meanR_turn hs (ones _) with ⟨h1, h2⟩ | ⟨m, m', r, h1, h2, h3⟩
      · rw [h1, h2]
      · rw [h1, h2]; rfl
    · simp only [e1]
      rw [List.forall₂_map_left_iff, List.forall₂_map_right_iff, List.forall₂_same]
      exact fun c hc => clusterMean_turn h (e2 c hc)

/-! ## K-means -/

/-- Specification: all angles are in `[0, 2π]`. -/
def OneTurn (l : List ℝ) : Prop := ∀ x ∈ l, 0 ≤ x ∧ x ≤ 2 * π

private def CentersOk (metric : String) (l : List (Option ℝ)) : Prop :=
  metric = "geodesic" → ∀ x, some x ∈ l → 0 ≤ x ∧ x ≤ 2 * π

private lemma kmDist_turn {metric : String} {t x x' : ℝ} {c c' : Option ℝ} (hx : Turn t x x') (hc : TurnNan t c c')
    (hg : metric = "geodesic" → (0 ≤ x ∧ x ≤ 2 * π) ∧ (0 ≤ x' ∧ x' ≤ 2 * π) ∧ (∀ a, c = some a → 0 ≤ a ∧ a ≤ 2 * π) ∧
      ∀ a, c' = some a → 0 ≤ a ∧ a ≤ 2 * π) :
    kmDist metric x' c' = kmDist metric x c := by
  rcases hc with ⟨rfl, rfl⟩ | ⟨a, b, rfl, rfl, hab⟩
  · rfl
  · simp only [kmDist, Option.map_some, Option.some.injEq]
    rw [hacDist_turn hx hab]
    intro hm
    obtain ⟨h1, h2, h3, h4⟩ := hg hm
    have h3 := h3 a rfl
    have h4 := h4 b rfl
    exact ⟨abs_le.2 ⟨by linarith [h1.1, h3.2], by linarith [h1.2, h3.1]⟩,
      abs_le.2 ⟨by linarith [h2.1, h4.2], by linarith [h2.2, h4.1]⟩⟩

private lemma map_eq_of_forall₂ {α β γ : Type} {R : α → β → Prop} {f : α → γ} {g : β → γ} {l : List α} {l' : List β}
    (h : List.Forall₂ R l l') (hfg : ∀ a ∈ l, ∀ b ∈ l', R a b → g b = f a) : l'.map g = l.map f := by
  induction h with
  | nil => rfl
  | cons hab _ ih =>
    rw [List.map_cons, List.map_cons, hfg _ (by simp) _ (by simp) hab,
      ih fun a ha b hb => hfg a (by simp [ha]) b (by simp [hb])]

private lemma nearest_turn {metric : String} {t x x' : ℝ} {cs cs' : List (Option ℝ)} (hx : Turn t x x')
    (hc : List.Forall₂ (TurnNan t) cs cs') (hg : metric = "geodesic" → (0 ≤ x ∧ x ≤ 2 * π) ∧ (0 ≤ x' ∧ x' ≤ 2 * π))
    (h1 : CentersOk metric cs) (h2 : CentersOk metric cs') : nearest metric cs' x' = nearest metric cs x := by
  unfold nearest
  rw [map_eq_of_forall₂ hc fun a ha b hb hab => kmDist_turn hx hab fun hm => ⟨(hg hm).1, (hg hm).2,
    fun c e => h1 hm c (e ▸ ha), fun c e => h2 hm c (e ▸ hb)⟩]

private lemma members_turn {t : ℝ} {alpha beta : List ℝ} (h : List.Forall₂ (Turn t) alpha beta) (labels : List ℕ) (c : ℕ) :
    List.Forall₂ (Turn t) ((List.zip alpha labels).filterMap fun p => if p.2 = c then some p.1 else none)
      ((List.zip beta labels).filterMap fun p => if p.2 = c then some p.1 else none) := by
  induction h generalizing labels with
  | nil => simp
  | cons hab _ ih =>
    cases labels with
    | nil => simp
    | cons l ls =>
      simp only [List.zip_cons_cons, List.filterMap_cons]
      by_cases hl : l = c
      · simp only [hl, if_true]
        exact .cons hab (ih ls)
      · simp only [hl, if_false]
        exact ih ls

private lemma newCenters_turn {t : ℝ} {alpha beta : List ℝ} (h : List.Forall₂ (Turn t) alpha beta) (labels : List ℕ)
    {cs cs' : List (Option ℝ)} (hc : List.Forall₂ (TurnNan t) cs cs') :
    List.Forall₂ (TurnNan t) (newCenters alpha labels cs) (newCenters beta labels cs') := by
  unfold newCenters
  rw [List.forall₂_iff_get]
  refine ⟨by simp [hc.length_eq], fun i h1 h2 => ?_⟩
  simp only [List.get_eq_getElem, List.getElem_mapIdx]
  have hm := members_turn h labels i
  have hi : TurnNan t (cs[i]'(by simpa using h1)) (cs'[i]'(by simpa using h2)) := hc.get _ _
  rw [sub_ones hm]
  split_ifs with e1 e2 e2
  · exact hi
  · rw [e1] at hm; exact absurd (List.forall₂_nil_left_iff.1 hm) e2
  · rw [e2] at hm; exact absurd (List.forall₂_nil_right_iff.1 hm) e1
  · rcases meanR_turn hm (ones _) with ⟨h1, h2⟩ | ⟨m, m', r, h1, h2, h3⟩
    · rw [h1, h2]; exact Or.inl ⟨rfl, rfl⟩
    · rw [h1, h2]; exact h3

private lemma newCenters_ok {metric : String} {alpha : List ℝ} {labels : List ℕ} {cs : List (Option ℝ)}
    (hc : CentersOk metric cs) : CentersOk metric (newCenters alpha labels cs) := by
  intro hm x hx
  unfold newCenters at hx
  obtain ⟨i, hi, e⟩ := List.mem_iff_getElem.1 hx
  rw [List.getElem_mapIdx] at e
  simp only at e
  split_ifs at e
  · exact hc hm x (e ▸ List.getElem_mem _)
  · rw [Option.bind_eq_some_iff] at e
    obtain ⟨⟨m, r⟩, h1, h2⟩ := e
    simp only at h2
    subst h2
    exact ⟨(meanR_mem h1).1, (meanR_mem h1).2.le⟩

private lemma centerShift_turn {t : ℝ} {a a' b b' : List (Option ℝ)} (ha : List.Forall₂ (TurnNan t) a a')
    (hb : List.Forall₂ (TurnNan t) b b') : centerShift a' b' = centerShift a b := by
  unfold centerShift
  congr 1
  induction ha generalizing b b' with
  | nil => rfl
  | cons h _ ih =>
    cases hb with
    | nil => rfl
    | cons g gs =>
      simp only [List.zip_cons_cons, List.mapM_cons, ih gs]
      congr 1
      rcases h with ⟨rfl, rfl⟩ | ⟨x, x', rfl, rfl, hx⟩
      · rfl
      · rcases g with ⟨rfl, rfl⟩ | ⟨y, y', rfl, rfl, hy⟩
        · rfl
        · show some |Complex.arg (Complex.exp (Complex.I * x') / Complex.exp (Complex.I * y'))| =
            some |Complex.arg (Complex.exp (Complex.I * x) / Complex.exp (Complex.I * y))|
          have := hacDist_turn (metric := "center") hx hy fun e => absurd e (by decide)
          simp only [hacDist, circDist, if_true] at this
          rw [this]

private lemma kmLoop_turn {metric : String} {tol t : ℝ} {alpha beta : List ℝ} (h : List.Forall₂ (Turn t) alpha beta)
    (hg : metric = "geodesic" → OneTurn alpha ∧ OneTurn beta) :
    ∀ (n : ℕ) (labels : List ℕ) (cs cs' : List (Option ℝ)), List.Forall₂ (TurnNan t) cs cs' → CentersOk metric cs →
      CentersOk metric cs' → (kmLoop metric tol beta n labels cs').1 = (kmLoop metric tol alpha n labels cs).1 ∧
        List.Forall₂ (TurnNan t) (kmLoop metric tol alpha n labels cs).2 (kmLoop metric tol beta n labels cs').2 ∧
        CentersOk metric (kmLoop metric tol alpha n labels cs).2 ∧
        CentersOk metric (kmLoop metric tol beta n labels cs').2 := by
  intro n
  induction n with
  | zero => intro labels cs cs' hc h1 h2; exact ⟨rfl, hc, h1, h2⟩
  | succ n ih =>
    intro labels cs cs' hc h1 h2
    have hl : beta.map (nearest metric cs') = alpha.map (nearest metric cs) :=
      map_eq_of_forall₂ h fun a ha b hb hab =>
        nearest_turn hab hc (fun hm => ⟨(hg hm).1 a ha, (hg hm).2 b hb⟩) h1 h2
    have hn := newCenters_turn h (alpha.map (nearest metric cs)) hc
    have hs := centerShift_turn hc hn
    rw [kmLoop, kmLoop]
    simp only [hl, hs]
    split_ifs
    · exact ⟨rfl, hn, newCenters_ok h1, newCenters_ok h2⟩
    · exact ih _ _ _ hn (newCenters_ok h1) (newCenters_ok h2)

/-- **C134.** Turning all angles leaves the labels and the inertia of k-means as they are (for the same drawn starting
points) and turns the centres; with the metric "geodesic" for angles written in `[0, 2π]`. -/
theorem C134_kmeans {metric : String} {k maxIter : ℕ} {tol t : ℝ} {init : List ℕ} {alpha beta : List ℝ}
    (hi : ∀ i ∈ init, i < alpha.length) (h : List.Forall₂ (Turn t) alpha beta)
    (hg : metric = "geodesic" → OneTurn alpha ∧ OneTurn beta) :
    (kmFit metric k maxIter tol init beta).labels = (kmFit metric k maxIter tol init alpha).labels ∧
    (kmFit metric k maxIter tol init beta).inertia = (kmFit metric k maxIter tol init alpha).inertia ∧
    List.Forall₂ (TurnNan t) (kmFit metric k maxIter tol init alpha).centers
      (kmFit metric k maxIter tol init beta).centers := by
  have hlen := h.length_eq
  unfold kmFit
  rw [← hlen]
  split_ifs with hk
  · refine ⟨rfl, rfl, ?_⟩
    simp only [List.forall₂_map_left_iff, List.forall₂_map_right_iff]
    exact h.imp fun a b hab => Or.inr ⟨a, b, rfl, rfl, hab⟩
  · have h0 : List.Forall₂ (TurnNan t) (init.map fun i => some (alpha.getD i 0)) (init.map fun i => some (beta.getD i 0)) := by
      have := sub_turn h hi
      rw [List.forall₂_map_left_iff, List.forall₂_map_right_iff] at this ⊢
      exact this.imp fun a b hab => Or.inr ⟨_, _, rfl, rfl, hab⟩
    have hok : ∀ {l : List ℝ}, (metric = "geodesic" → OneTurn l) → (∀ i ∈ init, i < l.length) →
        CentersOk metric (init.map fun i => some (l.getD i 0)) := by
      intro l hl hli hm x hx
      obtain ⟨i, hi', e⟩ := List.mem_map.1 hx
      cases e
      have := hli i hi'
      rw [List.getD_eq_getElem?_getD, List.getElem?_eq_getElem this]
      exact hl hm _ (List.getElem_mem _)
    have hz : (beta.map fun _ => 0) = alpha.map fun _ => (0 : ℕ) := by simp only [List.map_const', hlen]
    obtain ⟨e1, e2, e3, e4⟩ := kmLoop_turn (tol := tol) h hg maxIter (alpha.map fun _ => 0) _ _ h0
      (hok (fun hm => (hg hm).1) hi) (hok (fun hm => (hg hm).2) (by rwa [← hlen]))
    simp only [hz]
    refine ⟨e1, ?_, e2⟩
    rw [e1]
    generalize (kmLoop metric tol alpha maxIter (alpha.map fun _ => 0) (init.map fun i => some (alpha.getD i 0))).1 = ls
    generalize (kmLoop metric tol alpha maxIter (alpha.map fun _ => 0) (init.map fun i => some (alpha.getD i 0))).2 = cs at e2 e3 ⊢
    generalize (kmLoop metric tol beta maxIter (alpha.map fun _ => 0) (init.map fun i => some (beta.getD i 0))).2 = cs' at e2 e4 ⊢
    unfold kmInertia
    congr 1
    clear hi hlen hk h0 hok hz e1
    induction h generalizing ls with
    | nil => rfl
    | @cons a b as bs hab _ ih =>
      cases ls with
      | nil => rfl
      | cons l ls =>
        simp only [List.zip_cons_cons, List.mapM_cons]
        rw [ih (fun hm => ⟨fun x hx => (hg hm).1 x (by simp [hx]), fun x hx => (hg hm).2 x (by simp [hx])⟩)]
        congr 1
        have hc : TurnNan t (cs.getD l none) (cs'.getD l none) := by
          by_cases hl : l < cs.length
          · have hl' : l < cs'.length := e2.length_eq ▸ hl
            rw [List.getD_eq_getElem?_getD, List.getD_eq_getElem?_getD, List.getElem?_eq_getElem hl,
              List.getElem?_eq_getElem hl']
            exact e2.get hl hl'
          · have hl' : ¬ l < cs'.length := e2.length_eq ▸ hl
            rw [List.getD_eq_getElem?_getD, List.getD_eq_getElem?_getD, List.getElem?_eq_none (not_lt.1 hl),
              List.getElem?_eq_none (not_lt.1 hl')]
            exact Or.inl ⟨rfl, rfl⟩
        have hmem : ∀ {l : ℕ} {cs : List (Option ℝ)} {x : ℝ}, cs.getD l none = some x → some x ∈ cs := by
          intro l cs x hx
          rw [List.getD_eq_getElem?_getD] at hx
          cases hq : cs[l]? with
          | none => rw [hq] at hx; cases hx
          | some o => rw [hq] at hx; exact List.mem_of_getElem? (hq.trans (congrArg some hx))
        exact kmDist_turn hab hc fun hm => ⟨(hg hm).1 a (by simp), (hg hm).2 b (by simp),
          fun x hx => e3 hm x (hmem hx), fun x hx => e4 hm x (hmem hx)⟩

/-! ## Order of the observations -/

private lemma mapM_sum_perm {α : Type} (f : α → Option ℝ) {l l' : List α} (h : l.Perm l') :
    (l.mapM f).map List.sum = (l'.mapM f).map List.sum := by
  have hc : ∀ (a : α) (l : List α), ((a :: l).mapM f).map List.sum =
      (f a).bind fun x => ((l.mapM f).map List.sum).map fun y => x + y := by
    intro a l
    rw [List.mapM_cons]
    cases f a with
    | none => rfl
    | some x => cases hl : l.mapM f <;> simp [hl]
  induction h with
  | nil => rfl
  | cons a _ ih => rw [hc, hc, ih]
  | swap a b l =>
    rw [hc, hc, hc, hc]
    cases f a with
    | none => cases f b <;> rfl
    | some x =>
      cases f b with
      | none => rfl
      | some y =>
        cases hl : l.mapM f with
        | none => rfl
        | some z => simp [add_left_comm]
  | trans _ _ ih1 ih2 => exact ih1.trans ih2

private lemma zip_map {α β : Type} (f : α → β) (l : List α) : l.zip (l.map f) = l.map fun x => (x, f x) := by
  induction l with
  | nil => rfl
  | cons x xs ih => simp [ih]

private lemma mean_perm {l l' : List ℝ} (h : l.Perm l') : circMeanAndR l (ones l) = circMeanAndR l' (ones l') := by
  have hz : ∀ l : List ℝ, l.zip (ones l) = l.map fun x => (x, 1) := fun l => by
    have := zip_map (fun _ : ℝ => (1 : ℝ)) l
    simpa [ones] using this
  obtain ⟨e1, e2⟩ := moment_perm (length_ones l).symm (length_ones l').symm (by rw [hz, hz]; exact h.map _) 1
  rw [circMeanAndR_eq, circMeanAndR_eq, e1, e2]

private lemma newCenters_perm {alpha beta : List ℝ} (h : alpha.Perm beta) (f : ℝ → ℕ) (cs : List (Option ℝ)) :
    newCenters beta (beta.map f) cs = newCenters alpha (alpha.map f) cs := by
  unfold newCenters
  simp only [zip_map]
  congr 1
  funext c old
  have hp : ((alpha.map fun x => (x, f x)).filterMap fun p => if p.2 = c then some p.1 else none).Perm
      ((beta.map fun x => (x, f x)).filterMap fun p => if p.2 = c then some p.1 else none) :=
    (h.map _).filterMap _
  rw [mean_perm hp]
  have : ((beta.map fun x => (x, f x)).filterMap fun p => if p.2 = c then some p.1 else none) = [] ↔
      ((alpha.map fun x => (x, f x)).filterMap fun p => if p.2 = c then some p.1 else none) = [] := by
    constructor <;> intro e
    · rw [e] at hp; exact hp.eq_nil
    · rw [e] at hp; exact hp.symm.eq_nil
  simp only [this]

private lemma kmLoop_perm {metric : String} {tol : ℝ} {alpha beta : List ℝ} (h : alpha.Perm beta) :
    ∀ (n : ℕ) (f : ℝ → ℕ) (cs : List (Option ℝ)), ∃ g : ℝ → ℕ,
      (kmLoop metric tol alpha n (alpha.map f) cs).1 = alpha.map g ∧
      (kmLoop metric tol beta n (beta.map f) cs).1 = beta.map g ∧
      (kmLoop metric tol beta n (beta.map f) cs).2 = (kmLoop metric tol alpha n (alpha.map f) cs).2 := by
  intro n
  induction n with
  | zero => intro f cs; exact ⟨f, rfl, rfl, rfl⟩
  | succ n ih =>
    intro f cs
    rw [kmLoop, kmLoop]
    simp only [newCenters_perm h (nearest metric cs) cs]
    split_ifs
    · exact ⟨_, rfl, rfl, rfl⟩
    · exact ih _ _

/-- **C134.** K-means does not depend on the order in which the observations are listed: from the same starting angles
the centres and the inertia are the same, and every observation gets the same label. -/
theorem C134_kmeans_order {metric : String} {k maxIter : ℕ} {tol : ℝ} {init init' : List ℕ} {alpha beta : List ℝ}
    (h : alpha.Perm beta) (hk : k ≤ alpha.length)
    (hi : (init'.map fun i => beta.getD i 0) = init.map fun i => alpha.getD i 0) :
    (kmFit metric k maxIter tol init' beta).centers = (kmFit metric k maxIter tol init alpha).centers ∧
    (kmFit metric k maxIter tol init' beta).inertia = (kmFit metric k maxIter tol init alpha).inertia ∧
    ∃ g : ℝ → ℕ, (kmFit metric k maxIter tol init alpha).labels = alpha.map g ∧
      (kmFit metric k maxIter tol init' beta).labels = beta.map g := by
  have hi' : (init'.map fun i => some (beta.getD i 0)) = init.map fun i => some (alpha.getD i 0) := by
    have := congrArg (List.map some) hi
    simpa [List.map_map, Function.comp_def] using this
  unfold kmFit
  rw [if_neg (not_lt.2 hk), if_neg (by rw [← h.length_eq]; exact not_lt.2 hk), hi']
  obtain ⟨g, h1, h2, h3⟩ := kmLoop_perm (metric := metric) (tol := tol) h maxIter (fun _ => 0)
    (init.map fun i => some (alpha.getD i 0))
  simp only [h1, h2, h3]
  refine ⟨trivial, ?_, g, rfl, rfl⟩
  unfold kmInertia
  rw [zip_map, zip_map]
  exact (mapM_sum_perm _ (h.map _)).symm

/-- **C134 (negative).** Hierarchical clustering with the default metric `"center"` does depend on it: of the angles
0, 0.1 and 2 listed in this order, 0 and 2 are put in one cluster; listed in the opposite order, 0 and 0.1 are. -/
theorem C134_hac_order_fails : ∃ r r', hacFit "center" 2 none [0, 0.1, 2] = .ok r ∧
    hacFit "center" 2 none [2, 0.1, 0] = .ok r' ∧ r.labels = [some 1, some 0, some 1] ∧
    r'.labels = [some 0, some 1, some 1] := by
  have hpi := pi_gt_three
  have hd : ∀ x y d : ℝ, -π < d → d ≤ π → d = x - y → hacDist "center" x y = d := by
    intro x y d h0 h1 h
    rw [hacDist, C25_center_unique x y d h0 h1 (by rw [h]; exact CongMod.refl _ _)]
  have key : ∀ (l : List ℝ) (a b c : ℝ), l = [a, b, c] → 0 ≤ a ∧ a ≤ 2 → 0 ≤ b ∧ b ≤ 2 → 0 ≤ c ∧ c ≤ 2 →
      clusterDist "center" l (0, [0]) (1, [1]) = some (a - b) ∧ clusterDist "center" l (0, [0]) (2, [2]) = some (a - c) ∧
      clusterDist "center" l (1, [1]) (2, [2]) = some (b - c) := by
    rintro l a b c rfl ⟨ha, ha'⟩ ⟨hb, hb'⟩ ⟨hc, hc'⟩
    have m0 : clusterMean [a, b, c] [0] = some a := clusterMean_single _ _ _ rfl ha (by linarith)
    have m1 : clusterMean [a, b, c] [1] = some b := clusterMean_single _ _ _ rfl hb (by linarith)
    have m2 : clusterMean [a, b, c] [2] = some c := clusterMean_single _ _ _ rfl hc (by linarith)
    refine ⟨?_, ?_, ?_⟩
    · simp only [clusterDist, m0, m1, hd a b _ (by linarith) (by linarith) rfl]
    · simp only [clusterDist, m0, m2, hd a c _ (by linarith) (by linarith) rfl]
    · simp only [clusterDist, m1, m2, hd b c _ (by linarith) (by linarith) rfl]
  have b1 : bestPair (clusterDist "center" [0, 0.1, 2]) [(0, [0]), (1, [1]), (2, [2])] =
      some (0 - 2, (0, [0]), (2, [2])) := by
    obtain ⟨d1, d2, d3⟩ := key [0, 0.1, 2] 0 0.1 2 rfl (by norm_num) (by norm_num) (by norm_num)
    simp only [bestPair, listPairs, List.map_cons, List.map_nil, List.cons_append, List.nil_append, List.foldl_cons,
      List.foldl_nil, pairStep, d1, d2, d3]
    norm_num
  have b2 : bestPair (clusterDist "center" [2, 0.1, 0]) [(0, [0]), (1, [1]), (2, [2])] =
      some (0.1 - 0, (1, [1]), (2, [2])) := by
    obtain ⟨d1, d2, d3⟩ := key [2, 0.1, 0] 2 0.1 0 rfl (by norm_num) (by norm_num) (by norm_num)
    simp only [bestPair, listPairs, List.map_cons, List.map_nil, List.cons_append, List.nil_append, List.foldl_cons,
      List.foldl_nil, pairStep, d1, d2, d3]
    norm_num
  have l1 : (hacLoop (clusterDist "center" [0, 0.1, 2]) 2 3 3 [(0, [0]), (1, [1]), (2, [2])] []).1 =
      [(1, [1]), (3, [0, 2])] := by
    rw [hacLoop, if_neg (by simp), b1]
    simp only
    rw [show (([(0, [0]), (1, [1]), (2, [2])] : List Cluster).filter fun c => decide (c.1 ≠ 0 ∧ c.1 ≠ 2)) ++
      [(3, [0] ++ [2])] = [(1, [1]), (3, [0, 2])] from rfl, hacLoop, if_pos (by simp)]
  have l2 : (hacLoop (clusterDist "center" [2, 0.1, 0]) 2 3 3 [(0, [0]), (1, [1]), (2, [2])] []).1 =
      [(0, [0]), (3, [1, 2])] := by
    rw [hacLoop, if_neg (by simp), b2]
    simp only
    rw [show (([(0, [0]), (1, [1]), (2, [2])] : List Cluster).filter fun c => decide (c.1 ≠ 1 ∧ c.1 ≠ 2)) ++
      [(3, [1] ++ [2])] = [(0, [0]), (3, [1, 2])] from rfl, hacLoop, if_pos (by simp)]
  refine ⟨_, _, rfl, rfl, ?_, ?_⟩
  · show (List.range 3).map (labelOf (hacLoop (clusterDist "center" [0, 0.1, 2]) 2 3 3 [(0, [0]), (1, [1]), (2, [2])] []).1 0) = _
    rw [l1]; rfl
  · show (List.range 3).map (labelOf (hacLoop (clusterDist "center" [2, 0.1, 0]) 2 3 3 [(0, [0]), (1, [1]), (2, [2])] []).1 0) = _
    rw [l2]; rfl

/-- Witnesses for the hypotheses: three angles turned by 1, one of them written a turn lower; and in another order. -/
example : List.Forall₂ (Turn 1) [0, 2, 3] [1, 3 - 2 * π, 4] ∧ ([0, 2, 3] : List ℝ).Perm [2, 0, 3] ∧
    ([1, 2].map fun i => ([2, 0, 3] : List ℝ).getD i 0) = [0, 2].map fun i => ([0, 2, 3] : List ℝ).getD i 0 := by
  refine ⟨.cons ⟨0, by norm_num⟩ (.cons ⟨-1, by push_cast; ring⟩ (.cons ⟨0, by norm_num⟩ .nil)), .swap _ _ _, rfl⟩

end Verif.Props
