import Verif.Lemmas.HAC
import Verif.Lemmas.Dist
import Verif.Props.Dist
import Mathlib.Tactic.IntervalCases

/-! # C61, C62: agglomerative clustering (`CircHAC.fit`) -/

set_option autoImplicit false

namespace Verif.Props

open Real Verif Verif.Spec

/-- Specification: the merge `m` joins two clusters of `cl` that occur in this order and have the smallest distance
among all pairs with a defined distance; it records their ids, the absolute distance and the joint size; `cl'`
contains the other clusters and the union, under the id `next`. -/
def IsMerge (dist : Cluster → Cluster → Option ℝ) (next : ℕ) (cl : List Cluster) (m : Merge) (cl' : List Cluster) :
    Prop :=
  ∃ x y d, [x, y].Sublist cl ∧ x.1 ≠ y.1 ∧ dist x y = some d ∧
    (∀ x' y', [x', y'].Sublist cl → ∀ d', dist x' y' = some d' → d ≤ d') ∧
    m = ⟨x.1, y.1, |d|, x.2.length + y.2.length⟩ ∧
    cl'.length + 1 = cl.length ∧
    ∀ c, c ∈ cl' ↔ (c ∈ cl ∧ c ≠ x ∧ c ≠ y) ∨ c = (next, x.2 ++ y.2)

/-- Specification: a sequence of merges leading from one list of clusters to another. -/
inductive Agglom (dist : Cluster → Cluster → Option ℝ) : ℕ → List Cluster → List Merge → List Cluster → Prop
  | done (next : ℕ) (cl : List Cluster) : Agglom dist next cl [] cl
  | step {next : ℕ} {cl cl' cl'' : List Cluster} {m : Merge} {ms : List Merge} :
      IsMerge dist next cl m cl' → Agglom dist (next + 1) cl' ms cl'' → Agglom dist next cl (m :: ms) cl''

private lemma hacLoop_spec (dist : Cluster → Cluster → Option ℝ) (k n : ℕ) :
    ∀ (fuel next : ℕ) (cl : List Cluster) (ms : List Merge), ClusterInv n next cl → cl.length ≤ fuel + k →
      ∃ ms', (hacLoop dist k fuel next cl ms).2 = ms ++ ms' ∧
        Agglom dist next cl ms' (hacLoop dist k fuel next cl ms).1 ∧
        (∃ next', ClusterInv n next' (hacLoop dist k fuel next cl ms).1) ∧
        (hacLoop dist k fuel next cl ms).1.length + ms'.length = cl.length ∧
        min k cl.length ≤ (hacLoop dist k fuel next cl ms).1.length ∧
        ((hacLoop dist k fuel next cl ms).1.length ≤ k ∨
          ∀ x y, [x, y].Sublist (hacLoop dist k fuel next cl ms).1 → dist x y = none) := by
  intro fuel
  induction fuel with
  | zero =>
    intro next cl ms hinv hle
    exact ⟨[], by simp [hacLoop], .done _ _, ⟨next, hinv⟩, by simp [hacLoop], by simp [hacLoop],
      Or.inl (by simpa [hacLoop] using hle)⟩
  | succ fuel ih =>
    intro next cl ms hinv hle
    rw [hacLoop]
    by_cases hk : cl.length ≤ k
    · rw [if_pos hk]
      exact ⟨[], by simp, .done _ _, ⟨next, hinv⟩, by simp, by simp, Or.inl hk⟩
    · rw [if_neg hk]
      cases hb : bestPair dist cl with
      | none =>
        exact ⟨[], by simp, .done _ _, ⟨next, hinv⟩, by simp, by simp, Or.inr (bestPair_none hb)⟩
      | some o =>
        obtain ⟨d, x, y⟩ := o
        simp only
        obtain ⟨h1, h2, h3⟩ := bestPair_some hb
        obtain ⟨hi, hl, hx, hy, hne, hmem⟩ := hinv.merge h2
        set cl' := (cl.filter fun c => c.1 ≠ x.1 ∧ c.1 ≠ y.1) ++ [(next, x.2 ++ y.2)] with hcl'
        obtain ⟨ms', e1, e2, e3, e4, e5, e6⟩ := ih (next + 1) cl' (ms ++ [⟨x.1, y.1, |d|, (x.2 ++ y.2).length⟩]) hi
          (by omega)
        refine ⟨⟨x.1, y.1, |d|, (x.2 ++ y.2).length⟩ :: ms', by rw [e1]; simp, .step ?_ e2, e3, ?_, ?_, e6⟩
        · exact ⟨x, y, d, h2, hne, h1, h3, by rw [List.length_append], hl, hmem⟩
        · simp only [List.length_cons]
          omega
        · omega

private lemma foldl_max_ge (l : List ℕ) (a : ℕ) : a ≤ l.foldl max a ∧ ∀ x ∈ l, x ≤ l.foldl max a := by
  induction l generalizing a with
  | nil => simp
  | cons y ys ih =>
    simp only [List.foldl_cons, List.mem_cons]
    refine ⟨le_trans (le_max_left _ _) (ih (max a y)).1, ?_⟩
    rintro x (rfl | hx)
    · exact le_trans (le_max_right _ _) (ih (max a x)).1
    · exact (ih (max a y)).2 x hx

private lemma singletons_inv (n : ℕ) {next : ℕ} (hn : n ≤ next) :
    ClusterInv n next ((List.range n).map fun i => (i, [i])) := by
  refine ⟨?_, ?_, ?_, ?_⟩
  · rw [List.map_map]
    simpa [Function.comp_def] using List.nodup_range
  · intro c hc
    obtain ⟨i, hi, rfl⟩ := List.mem_map.1 hc
    exact lt_of_lt_of_le (List.mem_range.1 hi) hn
  · intro c hc
    obtain ⟨i, hi, rfl⟩ := List.mem_map.1 hc
    simp
  · rw [List.map_map]
    have : (List.map (Prod.snd ∘ fun i : ℕ => (i, [i])) (List.range n)).flatten = List.range n := by
      simp [Function.comp_def, ← List.flatMap_def]
    rw [this]

/-- Grouping `0, …, n-1` by label. -/
private lemma group_perm (m n : ℕ) (lab : ℕ → ℕ) (h : ∀ i < n, lab i < m) :
    (((List.range m).map fun c => (List.range n).filter fun i => lab i = c).flatten).Perm (List.range n) := by
  rw [List.perm_ext_iff_of_nodup _ List.nodup_range]
  · intro i
    simp only [List.mem_flatten, List.mem_map, List.mem_range]
    constructor
    · rintro ⟨l, ⟨c, -, rfl⟩, hi⟩
      exact List.mem_range.1 (List.mem_of_mem_filter hi)
    · intro hi
      exact ⟨_, ⟨lab i, h i hi, rfl⟩, by simp [hi]⟩
  · rw [List.nodup_flatten]
    constructor
    · intro l hl
      obtain ⟨c, -, rfl⟩ := List.mem_map.1 hl
      exact List.nodup_range.filter _
    · rw [List.pairwise_map]
      refine List.nodup_range.imp_of_mem ?_
      intro a b _ _ hab i hi hi'
      simp only [List.mem_filter, decide_eq_true_eq] at hi hi'
      exact hab (hi.2.symm.trans hi'.2)

private lemma filterMap_groups (m n : ℕ) (lab : ℕ → ℕ) (cs : List ℕ) :
    ((cs.filterMap fun c => if (List.range n).filter (fun i => lab i = c) = [] then none
      else some (c, (List.range n).filter fun i => lab i = c)).map Prod.snd).flatten =
      (cs.map fun c => (List.range n).filter fun i => lab i = c).flatten := by
  induction cs with
  | nil => rfl
  | cons c cs ih =>
    rw [List.filterMap_cons]
    split_ifs with h
    · simp only [ih, List.map_cons, List.flatten_cons, h, List.nil_append]
    · simp only [List.map_cons, List.flatten_cons, ih]

private lemma filterMap_fst (n : ℕ) (lab : ℕ → ℕ) (cs : List ℕ) :
    ((cs.filterMap fun c => if (List.range n).filter (fun i => lab i = c) = [] then none
      else some (c, (List.range n).filter fun i => lab i = c)).map Prod.fst).Sublist cs := by
  induction cs with
  | nil => simp
  | cons c cs ih =>
    rw [List.filterMap_cons]
    split_ifs with h
    · exact ih.cons _
    · simp only [List.map_cons]
      exact ih.cons_cons _

private lemma hacInit_inv (n : ℕ) (pre : Option (ℕ × List ℕ))
    (hpre : ∀ m labels, pre = some (m, labels) → ∀ i < n, labels.getD i 0 < m) {next : ℕ}
    (hnext : ∀ c ∈ hacInit n pre, c.1 < next) : ClusterInv n next (hacInit n pre) := by
  have hsing : (∀ c ∈ (List.range n).map (fun i : ℕ => ((i, [i]) : Cluster)), c.1 < next) →
      ClusterInv n next ((List.range n).map fun i => (i, [i])) := by
    intro h
    have h' := singletons_inv n (le_refl n)
    exact ⟨h'.nodup, h, h'.ne, h'.perm⟩
  match pre, hpre, hnext with
  | none, _, hnext => exact hsing hnext
  | some (m, labels), hpre, hnext =>
    simp only [hacInit] at hnext ⊢
    split_ifs at hnext ⊢ with h1 h2
    · exact hsing hnext
    · exact hsing hnext
    · refine ⟨?_, hnext, ?_, ?_⟩
      · exact (filterMap_fst n (fun i => labels.getD i 0) (List.range m)).nodup List.nodup_range
      · intro c hc
        rw [List.mem_filterMap] at hc
        obtain ⟨a, -, ha⟩ := hc
        split_ifs at ha with h3
        rw [← Option.some.inj ha]
        exact h3
      · rw [filterMap_groups m n (fun i => labels.getD i 0)]
        exact group_perm m n _ (hpre m labels rfl)

private lemma labelOf_some : ∀ {cl : List Cluster} {pos i l : ℕ}, labelOf cl pos i = some l →
    pos ≤ l ∧ ∃ c, cl[l - pos]? = some c ∧ i ∈ c.2
  | [], _, _, _, h => by simp [labelOf] at h
  | c :: cs, pos, i, l, h => by
    rw [labelOf] at h
    cases h1 : labelOf cs (pos + 1) i with
    | some l' =>
      rw [h1] at h
      obtain rfl := Option.some.inj h
      obtain ⟨h2, c', h3, h4⟩ := labelOf_some h1
      refine ⟨by omega, c', ?_, h4⟩
      rw [show l' - pos = (l' - (pos + 1)) + 1 by omega, List.getElem?_cons_succ]
      exact h3
    | none =>
      rw [h1] at h
      simp only at h
      split_ifs at h with h2
      obtain rfl := Option.some.inj h
      exact ⟨le_rfl, c, by simp, h2⟩

private lemma labelOf_none : ∀ {cl : List Cluster} {pos i : ℕ}, labelOf cl pos i = none → ∀ c ∈ cl, i ∉ c.2
  | [], _, _, _ => by simp
  | c :: cs, pos, i, h => by
    rw [labelOf] at h
    cases h1 : labelOf cs (pos + 1) i with
    | some l' => rw [h1] at h; simp at h
    | none =>
      rw [h1] at h
      simp only at h
      split_ifs at h with h2
      intro c' hc'
      rcases List.mem_cons.1 hc' with rfl | hc'
      · exact h2
      · exact labelOf_none h1 c' hc'

private lemma labelOf_iff {n next : ℕ} {cl : List Cluster} (h : ClusterInv n next cl) (i l : ℕ) :
    labelOf cl 0 i = some l ↔ ∃ c, cl[l]? = some c ∧ i ∈ c.2 := by
  constructor
  · intro hl
    simpa using (labelOf_some hl).2
  · rintro ⟨c, hc, hi⟩
    cases h1 : labelOf cl 0 i with
    | none => exact absurd hi (labelOf_none h1 c (List.mem_of_getElem? hc))
    | some l' =>
      obtain ⟨-, c', hc', hi'⟩ := labelOf_some h1
      rw [Nat.sub_zero] at hc'
      congr 1
      have hnd : (cl.map Prod.snd).flatten.Nodup := h.perm.nodup_iff.2 List.nodup_range
      rw [List.nodup_flatten, List.pairwise_map] at hnd
      by_contra hne
      obtain ⟨hl, rfl⟩ := List.getElem?_eq_some_iff.1 hc
      obtain ⟨hl', rfl⟩ := List.getElem?_eq_some_iff.1 hc'
      have hp := List.pairwise_iff_getElem.1 hnd.2
      rcases Nat.lt_or_gt_of_ne hne with hlt | hlt
      · exact hp _ _ hl' hl hlt hi' hi
      · exact hp _ _ hl hl' hlt hi hi'

private lemma clusterMean_perm (alpha : List ℝ) {l l' : List ℕ} (h : l.Perm l') :
    clusterMean alpha l = clusterMean alpha l' := by
  have hp := h.map fun i => alpha.getD i 0
  simp only [clusterMean, circMeanAndR_eq, sum_ones, hp.length_eq]
  have : moment (l.map fun i => alpha.getD i 0) (ones (l.map fun i => alpha.getD i 0)) 1 =
      moment (l'.map fun i => alpha.getD i 0) (ones (l'.map fun i => alpha.getD i 0)) 1 := by
    have hz : ∀ l : List ℝ, l.zip (ones l) = l.map fun x => (x, 1) := by
      intro l
      induction l with
      | nil => rfl
      | cons x xs ih => simpa [ones] using ih
    refine (moment_perm (length_ones _).symm (length_ones _).symm ?_ 1).1
    rw [hz, hz]
    exact hp.map _
  rw [this]

/-- What `fit` does on more observations than requested clusters. -/
private lemma hacFit_spec {metric : String} {k : ℕ} {pre : Option (ℕ × List ℕ)} {alpha : List ℝ} {r : HACResult}
    (hk : k < alpha.length)
    (hpre : ∀ m labels, pre = some (m, labels) → ∀ i < alpha.length, labels.getD i 0 < m)
    (h : hacFit metric k pre alpha = .ok r) :
    ∃ next cl, (∀ c ∈ hacInit alpha.length pre, c.1 < next) ∧
      Agglom (clusterDist metric alpha) next (hacInit alpha.length pre) r.merges cl ∧
      (∃ next', ClusterInv alpha.length next' cl) ∧ cl.length + r.merges.length = (hacInit alpha.length pre).length ∧
      min k (hacInit alpha.length pre).length ≤ cl.length ∧
      (cl.length ≤ k ∨ ∀ x y, [x, y].Sublist cl → clusterDist metric alpha x y = none) ∧
      r.labels = (List.range alpha.length).map (labelOf cl 0) ∧ r.centers = cl.map fun c => clusterMean alpha c.2 := by
  rw [hacFit] at h
  simp only at h
  rw [if_neg (by omega), if_neg (by omega)] at h
  set cl0 := hacInit alpha.length pre
  set next := (cl0.map Prod.fst).foldl max 0 + 1
  have hnext : ∀ c ∈ cl0, c.1 < next := fun c hc =>
    Nat.lt_succ_of_le ((foldl_max_ge (cl0.map Prod.fst) 0).2 c.1 (List.mem_map_of_mem hc))
  obtain ⟨ms', e1, e2, e3, e4, e5, e6⟩ := hacLoop_spec (clusterDist metric alpha) k alpha.length cl0.length next cl0 []
    (hacInit_inv alpha.length pre hpre hnext) (by omega)
  rw [List.nil_append] at e1
  have h := (Except.ok.inj h).symm
  subst h
  refine ⟨next, _, hnext, ?_, e3, ?_, e5, e6, rfl, rfl⟩
  · simp only [e1]
    exact e2
  · simp only [e1]
    exact e4

/-- The labels form a partition: every observation has a label below the number of centres, every label is used,
and the centre of a label is the mean direction of the observations that carry it (`none` is `nan`). -/
theorem C61_partition {metric : String} {k : ℕ} {pre : Option (ℕ × List ℕ)} {alpha : List ℝ} {r : HACResult}
    (hk : k < alpha.length)
    (hpre : ∀ m labels, pre = some (m, labels) → ∀ i < alpha.length, labels.getD i 0 < m)
    (h : hacFit metric k pre alpha = .ok r) :
    r.labels.length = alpha.length ∧
      (∀ i < alpha.length, ∃ l < r.centers.length, r.labels[i]? = some (some l)) ∧
      (∀ l < r.centers.length, ∃ i < alpha.length, r.labels[i]? = some (some l)) ∧
      ∀ l < r.centers.length, r.centers[l]? =
        some (clusterMean alpha ((List.range alpha.length).filter fun i => r.labels[i]? = some (some l))) := by
  obtain ⟨next, cl, -, -, ⟨next', hinv⟩, -, -, -, hl, hc⟩ := hacFit_spec hk hpre h
  have hlab : ∀ i < alpha.length, ∀ l, r.labels[i]? = some (some l) ↔ ∃ c, cl[l]? = some c ∧ i ∈ c.2 := by
    intro i hi l
    rw [hl, List.getElem?_map, List.getElem?_range hi, Option.map_some, Option.some.injEq]
    exact labelOf_iff hinv i l
  have hlen : r.centers.length = cl.length := by rw [hc, List.length_map]
  have hmem : ∀ i, (∃ c ∈ cl, i ∈ c.2) ↔ i < alpha.length := by
    intro i
    rw [← List.mem_range, ← hinv.perm.mem_iff, List.mem_flatten]
    constructor
    · rintro ⟨c, hc, hi⟩
      exact ⟨c.2, List.mem_map_of_mem hc, hi⟩
    · rintro ⟨l, hl, hi⟩
      obtain ⟨c, hc, rfl⟩ := List.mem_map.1 hl
      exact ⟨c, hc, hi⟩
  refine ⟨by rw [hl]; simp, fun i hi => ?_, fun l hlt => ?_, fun l hlt => ?_⟩
  · obtain ⟨c, hcc, hi'⟩ := (hmem i).2 hi
    obtain ⟨l, hlt, hlc⟩ := List.mem_iff_getElem.1 hcc
    exact ⟨l, by rw [hlen]; exact hlt, (hlab i hi l).2 ⟨c, by rw [List.getElem?_eq_getElem hlt, hlc], hi'⟩⟩
  · rw [hlen] at hlt
    obtain ⟨i, hi⟩ := List.exists_mem_of_ne_nil _ (hinv.ne cl[l] (List.getElem_mem hlt))
    have hin := (hmem i).1 ⟨_, List.getElem_mem hlt, hi⟩
    exact ⟨i, hin, (hlab i hin l).2 ⟨_, List.getElem?_eq_getElem hlt, hi⟩⟩
  · rw [hlen] at hlt
    rw [hc, List.getElem?_map, List.getElem?_eq_getElem hlt, Option.map_some]
    congr 1
    apply clusterMean_perm
    have hnd : (cl.map Prod.snd).flatten.Nodup := hinv.perm.nodup_iff.2 List.nodup_range
    rw [List.perm_ext_iff_of_nodup ((List.nodup_flatten.1 hnd).1 _ (List.mem_map_of_mem (List.getElem_mem hlt)))
      (List.nodup_range.filter _)]
    intro i
    rw [List.mem_filter, List.mem_range, decide_eq_true_eq]
    constructor
    · intro hi
      have hin := (hmem i).1 ⟨_, List.getElem_mem hlt, hi⟩
      exact ⟨hin, (hlab i hin l).2 ⟨_, List.getElem?_eq_getElem hlt, hi⟩⟩
    · rintro ⟨hin, hli⟩
      obtain ⟨c, hcl, hi⟩ := (hlab i hin l).1 hli
      rw [List.getElem?_eq_getElem hlt] at hcl
      rw [Option.some.inj hcl]
      exact hi

/-- The number of clusters and the merges, from singletons: every merge lowers the number of clusters by one, there
are at least `k` clusters at the end, and exactly `k` unless at most one of the remaining centres is defined. -/
theorem C61_count {metric : String} {k : ℕ} {alpha : List ℝ} {r : HACResult} (hk : k < alpha.length)
    (h : hacFit metric k none alpha = .ok r) :
    r.centers.length + r.merges.length = alpha.length ∧ k ≤ r.centers.length ∧
      (r.centers.length = k ∨ ∀ l l' : ℕ, l < l' → ∀ a b, r.centers[l]? = some a → r.centers[l']? = some b →
        a = none ∨ b = none) := by
  obtain ⟨next, cl, -, -, -, h1, h2, h3, -, hc⟩ := hacFit_spec hk (by simp) h
  have hlen : r.centers.length = cl.length := by rw [hc, List.length_map]
  have h0 : (hacInit alpha.length none).length = alpha.length := by simp [hacInit]
  rw [h0] at h1 h2
  rw [hlen]
  refine ⟨h1, by omega, ?_⟩
  rcases h3 with h3 | h3
  · left
    omega
  · right
    intro l l' hlt a b ha hb
    rw [hc, List.getElem?_map] at ha hb
    obtain ⟨x, hx, rfl⟩ := Option.map_eq_some_iff.1 ha
    obtain ⟨y, hy, rfl⟩ := Option.map_eq_some_iff.1 hb
    obtain ⟨hl1, rfl⟩ := List.getElem?_eq_some_iff.1 hx
    obtain ⟨hl2, rfl⟩ := List.getElem?_eq_some_iff.1 hy
    have hsub : [cl[l], cl[l']].Sublist cl := by
      refine List.Sublist.trans ?_ (List.drop_sublist l cl)
      rw [List.drop_eq_getElem_cons hl1]
      refine List.Sublist.cons_cons _ (List.singleton_sublist.2 ?_)
      rw [List.mem_iff_getElem]
      exact ⟨l' - (l + 1), by simp; omega, by simp [show l + 1 + (l' - (l + 1)) = l' by omega]⟩
    have := h3 _ _ hsub
    rw [clusterDist] at this
    cases hm : clusterMean alpha cl[l].2 with
    | none => exact Or.inl rfl
    | some u =>
      cases hm' : clusterMean alpha cl[l'].2 with
      | none => exact Or.inr rfl
      | some v => rw [hm, hm'] at this; simp at this

/-- The merges recorded lead from the initial clusters to clusters that carry the labels; each joins a pair with the
smallest distance (see `IsMerge`). -/
theorem C61_merges {metric : String} {k : ℕ} {pre : Option (ℕ × List ℕ)} {alpha : List ℝ} {r : HACResult}
    (hk : k < alpha.length)
    (hpre : ∀ m labels, pre = some (m, labels) → ∀ i < alpha.length, labels.getD i 0 < m)
    (h : hacFit metric k pre alpha = .ok r) :
    ∃ next cl, (∀ c ∈ hacInit alpha.length pre, c.1 < next) ∧
      Agglom (clusterDist metric alpha) next (hacInit alpha.length pre) r.merges cl ∧
      cl.length = r.centers.length ∧
      ∀ i < alpha.length, ∀ l, r.labels[i]? = some (some l) ↔ ∃ c, cl[l]? = some c ∧ i ∈ c.2 := by
  obtain ⟨next, cl, h0, h1, ⟨next', hinv⟩, -, -, -, hl, hc⟩ := hacFit_spec hk hpre h
  refine ⟨next, cl, h0, h1, by rw [hc, List.length_map], fun i hi l => ?_⟩
  rw [hl, List.getElem?_map, List.getElem?_range hi, Option.map_some, Option.some.injEq]
  exact labelOf_iff hinv i l

/-- With no more observations than clusters every observation is its own cluster; no data are refused. -/
theorem C61_small (metric : String) (k : ℕ) (pre : Option (ℕ × List ℕ)) (alpha : List ℝ) :
    (alpha ≠ [] → alpha.length ≤ k → hacFit metric k pre alpha =
      .ok ⟨(List.range alpha.length).map some, alpha.map some, alpha.map fun _ => some 1, []⟩) ∧
    hacFit metric k pre [] = .error .valueError := by
  constructor
  · intro hne hle
    have : alpha.length ≠ 0 := fun h => hne (List.length_eq_zero_iff.1 h)
    rw [hacFit]
    simp only
    rw [if_neg this, if_pos hle]
  · rfl

/-! ## C62: which pair is merged -/

lemma clusterMean_single (alpha : List ℝ) (i : ℕ) (x : ℝ) (h : alpha.getD i 0 = x) (h0 : 0 ≤ x)
    (h1 : x < 2 * π) : clusterMean alpha [i] = some x := by
  have hm : moment [x] [1] 1 = Complex.exp (x * Complex.I) := by
    simp [moment, expSum]
  have hn : ‖Complex.exp ((x : ℝ) * Complex.I)‖ = 1 := Complex.norm_exp_ofReal_mul_I x
  have hs : SameDir (Complex.arg (Complex.exp (x * Complex.I))) x := by
    rw [← one_mul (Complex.exp _), ← Complex.ofReal_one]
    exact arg_sameDir_of_polar one_pos rfl
  simp only [clusterMean, List.map_cons, List.map_nil, h]
  rw [show ones [x] = [1] from rfl, circMeanAndR_eq, if_neg (by simp), hm, hn, if_neg (by norm_num)]
  simp only [Option.bind_some, Option.some.injEq]
  rw [angmod2pi_congr hs, angmod2pi_eq_self h0 h1]

private lemma arc_facts {e a b : ℝ} (he : IsArcDist e a b) : 0 ≤ e ∧ e ≤ π ∧ cos e = cos (a - b) := by
  obtain ⟨d, -, h0, h1, hs, hd⟩ := C25_center a b
  have := isArcDist_unique he hd
  rw [this]
  exact ⟨abs_nonneg _, abs_le.2 ⟨h0.le, h1⟩, by rw [cos_abs]; exact cos_eq_of_sameDir hs⟩

/-- The distance of two mean directions, for the metrics other than `"center"`, orders pairs as the arc between
them does. -/
private lemma hacDist_le {metric : String}
    (hm : metric = "geodesic" ∨ metric = "angularseparation" ∨ metric = "chord")
    {a b a' b' e e' : ℝ} (ha : 0 ≤ a ∧ a < 2 * π) (hb : 0 ≤ b ∧ b < 2 * π) (ha' : 0 ≤ a' ∧ a' < 2 * π)
    (hb' : 0 ≤ b' ∧ b' < 2 * π) (he : IsArcDist e a b) (he' : IsArcDist e' a' b')
    (h : hacDist metric a b ≤ hacDist metric a' b') : e ≤ e' := by
  obtain ⟨f1, f2, f3⟩ := arc_facts he
  obtain ⟨g1, g2, g3⟩ := arc_facts he'
  have hcos : cos e' ≤ cos e → e ≤ e' := by
    intro hc
    by_contra hcon
    have := strictAntiOn_cos ⟨g1, g2⟩ ⟨f1, f2⟩ (not_le.1 hcon)
    linarith
  rcases hm with rfl | rfl | rfl
  · have hd : ∀ {x y : ℝ}, 0 ≤ x ∧ x < 2 * π → 0 ≤ y ∧ y < 2 * π → |x - y| ≤ 2 * π := fun hx hy =>
      abs_le.2 ⟨by linarith [hx.1, hy.2], by linarith [hx.2, hy.1]⟩
    obtain ⟨d, hd1, hd2⟩ := C17_geodesic_isArcDist a b (hd ha hb)
    obtain ⟨d', hd1', hd2'⟩ := C17_geodesic_isArcDist a' b' (hd ha' hb')
    rw [hacDist, hacDist, hd1, hd1'] at h
    simp only at h
    rwa [isArcDist_unique he hd2, isArcDist_unique he' hd2']
  · apply hcos
    simp [hacDist, circDist] at h
    rw [f3, g3]
    linarith
  · apply hcos
    simp [hacDist, circDist] at h
    rw [f3, g3]
    have h0 : 0 ≤ 1 - cos (a' - b') := by linarith [cos_le_one (a' - b')]
    rw [sqrt_le_sqrt_iff h0] at h
    linarith

private lemma clusterMean_mem {alpha : List ℝ} {l : List ℕ} {a : ℝ} (h : clusterMean alpha l = some a) :
    0 ≤ a ∧ a < 2 * π := by
  simp only [clusterMean, circMeanAndR_eq] at h
  split_ifs at h with h1 h2
  · simp at h
  · simp at h
  · simp only [Option.bind_some, Option.some.injEq] at h
    rw [← h]
    exact ⟨angmod2pi_nonneg _, angmod2pi_lt _⟩

private lemma pair_sublist {α : Type} {l : List α} {x y : α} (hx : x ∈ l) (hy : y ∈ l) (hne : x ≠ y) :
    [x, y].Sublist l ∨ [y, x].Sublist l := by
  induction l with
  | nil => simp at hx
  | cons z zs ih =>
    rcases List.mem_cons.1 hx with rfl | hx'
    · rcases List.mem_cons.1 hy with rfl | hy'
      · exact absurd rfl hne
      · exact Or.inl (List.Sublist.cons_cons _ (List.singleton_sublist.2 hy'))
    · rcases List.mem_cons.1 hy with rfl | hy'
      · exact Or.inr (List.Sublist.cons_cons _ (List.singleton_sublist.2 hx'))
      · exact (ih hx' hy').imp (fun h => h.cons _) (fun h => h.cons _)

/-- With a metric other than `"center"` every merge joins two clusters whose mean directions are at the smallest
arc distance on the circle, among all pairs of clusters with defined means. (The merges of a fit satisfy `IsMerge`
by `C61_merges`.) -/
theorem C62_closest {metric : String} (hm : metric = "geodesic" ∨ metric = "angularseparation" ∨ metric = "chord")
    {alpha : List ℝ} {next : ℕ} {cl cl' : List Cluster} {m : Merge}
    (h : IsMerge (clusterDist metric alpha) next cl m cl') :
    ∃ x ∈ cl, ∃ y ∈ cl, ∃ a b, m.left = x.1 ∧ m.right = y.1 ∧ x.1 ≠ y.1 ∧
      clusterMean alpha x.2 = some a ∧ clusterMean alpha y.2 = some b ∧
      ∀ x' ∈ cl, ∀ y' ∈ cl, x' ≠ y' → ∀ a' b', clusterMean alpha x'.2 = some a' → clusterMean alpha y'.2 = some b' →
        ∀ e e', IsArcDist e a b → IsArcDist e' a' b' → e ≤ e' := by
  obtain ⟨x, y, d, hs, hne, hd, hmin, rfl, -, -⟩ := h
  have hx : x ∈ cl := hs.subset (by simp)
  have hy : y ∈ cl := hs.subset (by simp)
  cases ha : clusterMean alpha x.2 with
  | none => simp [clusterDist, ha] at hd
  | some a =>
    cases hb : clusterMean alpha y.2 with
    | none => simp [clusterDist, ha, hb] at hd
    | some b =>
      have hd' : hacDist metric a b = d := by simpa [clusterDist, ha, hb] using hd
      refine ⟨x, hx, y, hy, a, b, rfl, rfl, hne, ha, hb, fun x' hx' y' hy' hne' a' b' ha' hb' e e' he he' => ?_⟩
      rcases pair_sublist hx' hy' hne' with hs' | hs'
      · have := hmin x' y' hs' (hacDist metric a' b') (by simp [clusterDist, ha', hb'])
        rw [← hd'] at this
        exact hacDist_le hm (clusterMean_mem ha) (clusterMean_mem hb) (clusterMean_mem ha') (clusterMean_mem hb')
          he he' this
      · have := hmin y' x' hs' (hacDist metric b' a') (by simp [clusterDist, ha', hb'])
        rw [← hd'] at this
        have hsw : hacDist metric b' a' = hacDist metric a' b' := by
          rw [hacDist, hacDist, C25_swap b' a' metric (by rcases hm with rfl | rfl | rfl <;> decide)]
        rw [hsw] at this
        exact hacDist_le hm (clusterMean_mem ha) (clusterMean_mem hb) (clusterMean_mem ha') (clusterMean_mem hb')
          he he' this

/-- With the default metric `"center"` the code compares signed differences, so it does not merge the closest pair:
for the angles 0, 0.1 and 3 and two clusters it joins the first and the last, at distance 3, although the first two
are at distance 0.1. -/
theorem C62_center_fails : ∃ r, hacFit "center" 2 none [0, 0.1, 3] = .ok r ∧
    r.merges = [⟨0, 2, 3, 2⟩] ∧ IsArcDist 0.1 0 0.1 ∧ IsArcDist 3 0 3 := by
  have hpi := pi_gt_three
  have m0 : clusterMean [0, 0.1, 3] [0] = some 0 := clusterMean_single _ _ _ rfl le_rfl (by linarith)
  have m1 : clusterMean [0, 0.1, 3] [1] = some 0.1 := clusterMean_single _ _ _ rfl (by norm_num) (by norm_num; linarith)
  have m2 : clusterMean [0, 0.1, 3] [2] = some 3 := clusterMean_single _ _ _ rfl (by norm_num) (by linarith)
  have hd : ∀ x y d : ℝ, -π < d → d ≤ π → d = x - y → hacDist "center" x y = d := by
    intro x y d h0 h1 h
    rw [hacDist, C25_center_unique x y d h0 h1 (by rw [h]; exact CongMod.refl _ _)]
  have d01 : clusterDist "center" [0, 0.1, 3] (0, [0]) (1, [1]) = some (-0.1) := by
    rw [clusterDist, m0, m1]
    simp only [hd 0 0.1 (-0.1) (by norm_num; linarith) (by norm_num; linarith) (by norm_num)]
  have d02 : clusterDist "center" [0, 0.1, 3] (0, [0]) (2, [2]) = some (-3) := by
    rw [clusterDist, m0, m2]
    simp only [hd 0 3 (-3) (by linarith) (by linarith) (by norm_num)]
  have d12 : clusterDist "center" [0, 0.1, 3] (1, [1]) (2, [2]) = some (-2.9) := by
    rw [clusterDist, m1, m2]
    simp only [hd 0.1 3 (-2.9) (by norm_num; linarith) (by norm_num; linarith) (by norm_num)]
  have hbest : bestPair (clusterDist "center" [0, 0.1, 3]) [(0, [0]), (1, [1]), (2, [2])] =
      some (-3, (0, [0]), (2, [2])) := by
    simp only [bestPair, listPairs, List.map_cons, List.map_nil, List.cons_append, List.nil_append, List.foldl_cons,
      List.foldl_nil, pairStep, d01, d02, d12]
    norm_num
  have hinit : hacInit [(0 : ℝ), 0.1, 3].length none = [(0, [0]), (1, [1]), (2, [2])] := rfl
  have hloop : (hacLoop (clusterDist "center" [0, 0.1, 3]) 2 3 3 [(0, [0]), (1, [1]), (2, [2])] []).2 =
      [⟨0, 2, 3, 2⟩] := by
    rw [hacLoop, if_neg (by simp), hbest]
    simp only
    rw [hacLoop, if_pos (by simp)]
    simp
  refine ⟨_, rfl, ?_, ?_, ?_⟩
  · exact hloop
  · have := isArcDist_of (e := -0.1) (a := 0) (b := 0.1) (by norm_num; linarith)
      (by norm_num; exact CongMod.refl _ _)
    norm_num at this ⊢
    exact this
  · have := isArcDist_of (e := -3) (a := 0) (b := 3) (by norm_num; linarith)
      (by norm_num; exact CongMod.refl _ _)
    norm_num at this ⊢
    exact this

end Verif.Props
