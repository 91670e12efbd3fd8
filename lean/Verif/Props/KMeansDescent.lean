import Verif.Props.KMeans

/-! # C95: k-means under angular separation does not raise its inertia -/

set_option autoImplicit false

namespace Verif.Props

open Real Verif Verif.Spec

private lemma hacDist_sep (x y : ℝ) : |hacDist "angularseparation" x y| = 1 - cos (x - y) := by
  rw [hacDist]
  simp only [circDist]
  rw [abs_of_nonneg]
  · simp
  · simp [cos_le_one]

private lemma sum_sep (l : List ℝ) (c : ℝ) : (l.map fun x => |hacDist "angularseparation" x c|).sum =
    l.length - (Complex.exp (-(c : ℂ) * Complex.I) * resultant l).re := by
  induction l with
  | nil => simp
  | cons x l ih =>
    rw [List.map_cons, List.sum_cons, ih, hacDist_sep, resultant_cons, mul_add, ← Complex.exp_add, Complex.add_re,
      show -(c : ℂ) * Complex.I + x * Complex.I = ((x - c : ℝ) : ℂ) * Complex.I by push_cast; ring,
      Complex.exp_ofReal_mul_I_re, List.length_cons]
    push_cast
    ring

/-- The mean direction has the smallest total angular separation from the members of the cluster. -/
theorem C95_center {members : List ℝ} {old : Option ℝ} {m : ℝ} (hne : members ≠ [])
    (h : IsCenter members old (some m)) (c : ℝ) :
    (members.map fun x => |hacDist "angularseparation" x m|).sum ≤
      (members.map fun x => |hacDist "angularseparation" x c|).sum := by
  rcases h with ⟨h, -⟩ | ⟨-, h, -⟩ | ⟨m', ρ, -, h, hρ, -, -, hr⟩
  · exact absurd h hne
  · cases h
  · cases h
    have hl : (members.length : ℂ) ≠ 0 := by
      have := List.length_pos_iff.2 hne
      exact_mod_cast this.ne'
    rw [div_eq_iff hl] at hr
    have hre : ∀ t : ℝ, (Complex.exp (-(t : ℂ) * Complex.I) * resultant members).re =
        ρ * members.length * cos (m - t) := by
      intro t
      rw [hr, show Complex.exp (-(t : ℂ) * Complex.I) * ((ρ : ℂ) * Complex.exp ((m : ℂ) * Complex.I) * members.length) =
        ((ρ * members.length : ℝ) : ℂ) * Complex.exp (((m - t : ℝ) : ℂ) * Complex.I) by
          rw [show ((m - t : ℝ) : ℂ) * Complex.I = -(t : ℂ) * Complex.I + (m : ℂ) * Complex.I by push_cast; ring,
            Complex.exp_add]
          push_cast
          ring, Complex.re_ofReal_mul, Complex.exp_ofReal_mul_I_re]
    rw [sum_sep, sum_sep, hre, hre, sub_self, cos_zero]
    have h0 : 0 ≤ ρ * members.length := by
      have : 0 < ρ := lt_trans (by norm_num) hρ
      positivity
    nlinarith [cos_le_one (m - c)]

/-- Total angular separation from the labelled centres. -/
private noncomputable def tot (l : List (ℝ × ℕ)) (cs : List ℝ) : ℝ :=
  (l.map fun p => |hacDist "angularseparation" p.1 (cs.getD p.2 0)|).sum

private lemma inertia_tot {alpha : List ℝ} {labels : List ℕ} {cs : List ℝ} (h : ∀ l ∈ labels, l < cs.length) :
    kmInertia "angularseparation" alpha labels (cs.map some) = some (tot (List.zip alpha labels) cs) := by
  rw [kmInertia, tot]
  have : ∀ p ∈ List.zip alpha labels, kmDist "angularseparation" p.1 ((cs.map some).getD p.2 none) =
      some |hacDist "angularseparation" p.1 (cs.getD p.2 0)| := by
    intro p hp
    have hlt := h p.2 (List.of_mem_zip hp).2
    rw [List.getD_eq_getElem?_getD, List.getD_eq_getElem?_getD, List.getElem?_map, List.getElem?_eq_getElem hlt]
    rfl
  rw [optMapM_some this, Option.map_some]

private lemma sum_group {k : ℕ} (F : ℝ × ℕ → ℝ) : ∀ l : List (ℝ × ℕ), (∀ p ∈ l, p.2 < k) →
    (l.map F).sum = ∑ c ∈ Finset.range k, ((l.filter fun p => p.2 = c).map F).sum
  | [], _ => by simp
  | p :: l, h => by
    have ih := sum_group F l fun q hq => h q (List.mem_cons_of_mem _ hq)
    have : ∀ c, (((p :: l).filter fun q => q.2 = c).map F).sum =
        (if c = p.2 then F p else 0) + ((l.filter fun q => q.2 = c).map F).sum := by
      intro c
      by_cases hc : p.2 = c
      · simp [hc]
      · simp [hc, Ne.symm hc]
    simp only [this]
    rw [Finset.sum_add_distrib, ← ih, Finset.sum_ite_eq', if_pos (Finset.mem_range.2 (h p List.mem_cons_self))]
    simp

private lemma all_some {l : List (Option ℝ)} (h : ∀ o ∈ l, o ≠ none) : ∃ cs : List ℝ, l = cs.map some := by
  induction l with
  | nil => exact ⟨[], rfl⟩
  | cons o l ih =>
    obtain ⟨cs, rfl⟩ := ih fun o ho => h o (List.mem_cons_of_mem _ ho)
    cases o with
    | none => exact absurd rfl (h none List.mem_cons_self)
    | some c => exact ⟨c :: cs, rfl⟩

private lemma zip_map_sum {alpha : List ℝ} {f : ℝ → ℕ} {labels : List ℕ} {F G : ℝ × ℕ → ℝ}
    (hlen : labels.length = alpha.length) (h : ∀ x ∈ alpha, ∀ l ∈ labels, F (x, f x) ≤ G (x, l)) :
    ((List.zip alpha (alpha.map f)).map F).sum ≤ ((List.zip alpha labels).map G).sum := by
  induction alpha generalizing labels with
  | nil => simp
  | cons x alpha ih =>
    cases labels with
    | nil => simp at hlen
    | cons l labels =>
      simp only [List.map_cons, List.zip_cons_cons, List.sum_cons]
      have h1 := h x List.mem_cons_self l List.mem_cons_self
      have h2 := ih (labels := labels) (by simpa using hlen) fun y hy l' hl' =>
        h y (List.mem_cons_of_mem _ hy) l' (List.mem_cons_of_mem _ hl')
      linarith

/-- One pass (assign, then update) from defined centres to defined centres does not raise the total separation. -/
theorem C95_pass {alpha : List ℝ} {labels : List ℕ} {centers : List (Option ℝ)} {v v' : ℝ}
    (hlen : labels.length = alpha.length) (hlt : ∀ l ∈ labels, l < centers.length)
    (hdef : ∀ o ∈ centers, o ≠ none)
    (hdef' : ∀ o ∈ newCenters alpha (alpha.map (nearest "angularseparation" centers)) centers, o ≠ none)
    (hv : kmInertia "angularseparation" alpha labels centers = some v)
    (hv' : kmInertia "angularseparation" alpha (alpha.map (nearest "angularseparation" centers))
      (newCenters alpha (alpha.map (nearest "angularseparation" centers)) centers) = some v') : v' ≤ v := by
  set labels' := alpha.map (nearest "angularseparation" centers) with hl'
  obtain ⟨cs', hcs'⟩ := all_some hdef'
  obtain ⟨cs, rfl⟩ := all_some hdef
  have hk : cs'.length = cs.length := by
    have := congrArg List.length hcs'
    simpa [newCenters] using this.symm
  have hne : alpha ≠ [] → cs.map some ≠ [] := by
    intro ha h
    have : labels ≠ [] := by
      rintro rfl
      exact ha (List.length_eq_zero_iff.1 hlen.symm)
    obtain ⟨l, hl⟩ := List.exists_mem_of_ne_nil _ this
    have := hlt l hl
    rw [h] at this
    simp at this
  have hlt0 : ∀ l ∈ labels, l < cs.length := by simpa using hlt
  have hlt' : ∀ l ∈ labels', l < cs.length := by
    intro l hl
    rw [hl', List.mem_map] at hl
    obtain ⟨x, hx, rfl⟩ := hl
    simpa using (nearest_isLabel "angularseparation" (hne (List.ne_nil_of_mem hx)) x).1
  rw [hcs', inertia_tot (by rwa [hk])] at hv'
  rw [inertia_tot hlt0] at hv
  rw [← Option.some.inj hv, ← Option.some.inj hv']
  refine le_trans (b := tot (List.zip alpha labels') cs) ?_ ?_
  · have hz : ∀ p ∈ List.zip alpha labels', p.2 < cs.length := fun p hp => hlt' _ (List.of_mem_zip hp).2
    rw [tot, tot, sum_group _ _ hz, sum_group _ _ hz]
    refine Finset.sum_le_sum fun c hc => ?_
    rw [Finset.mem_range] at hc
    obtain ⟨new, hn1, hn2⟩ := newCenters_isCenter alpha labels' (cs.map some) (c := c) (by simpa using hc)
    have hg : ∀ ds : List ℝ, (((List.zip alpha labels').filter fun p => p.2 = c).map
        fun p => |hacDist "angularseparation" p.1 (ds.getD p.2 0)|).sum =
        ((withLabel alpha labels' c).map fun x => |hacDist "angularseparation" x (ds.getD c 0)|).sum := by
      intro ds
      rw [withLabel, List.map_map]
      congr 1
      refine List.map_congr_left fun p hp => ?_
      have := (List.mem_filter.1 hp).2
      simp only [decide_eq_true_eq] at this
      simp [this]
    rw [hg, hg]
    by_cases hw : withLabel alpha labels' c = []
    · rw [hw]; simp
    · rw [hcs', List.getElem?_map, List.getElem?_eq_getElem (by omega), Option.map_some, Option.some.injEq] at hn1
      have : cs'.getD c 0 = cs'[c] := by
        rw [List.getD_eq_getElem?_getD, List.getElem?_eq_getElem (by omega), Option.getD_some]
      rw [this]
      rw [← hn1] at hn2
      exact C95_center hw hn2 _
  · refine zip_map_sum hlen fun x hx l hl => ?_
    obtain ⟨h1, h2⟩ := nearest_isLabel "angularseparation" (hne (List.ne_nil_of_mem hx)) x
    set m := nearest "angularseparation" (cs.map some) x
    rw [List.length_map] at h1
    have hget : ∀ j (hj : j < cs.length), (cs.map some)[j]? = some (some (cs.getD j 0)) := by
      intro j hj
      rw [List.getElem?_map, List.getD_eq_getElem?_getD, List.getElem?_eq_getElem hj]
      rfl
    rcases h2 with ⟨h2, -⟩ | ⟨c, h2, h3⟩
    · rw [hget m h1] at h2; cases h2
    · rw [hget m h1] at h2
      obtain ⟨b, hb, hle, -⟩ := h3 l _ (hget l (hlt0 l hl))
      cases hb
      cases h2
      exact hle

private lemma kmLoop_snoc (metric : String) (tol : ℝ) (alpha : List ℝ) : ∀ (m : ℕ) (l : List ℕ) (c : List (Option ℝ)),
    kmLoop metric tol alpha (m + 1) l c = kmLoop metric tol alpha m l c ∨
      kmLoop metric tol alpha (m + 1) l c =
        (alpha.map (nearest metric (kmLoop metric tol alpha m l c).2),
          newCenters alpha (alpha.map (nearest metric (kmLoop metric tol alpha m l c).2))
            (kmLoop metric tol alpha m l c).2)
  | 0, l, c => by
    right
    rw [kmLoop, kmLoop]
    split_ifs <;> rfl
  | m + 1, l, c => by
    have e : ∀ n, kmLoop metric tol alpha (n + 1) l c =
        if ∃ s, centerShift c (newCenters alpha (alpha.map (nearest metric c)) c) = some s ∧ s < tol then
          (alpha.map (nearest metric c), newCenters alpha (alpha.map (nearest metric c)) c)
        else kmLoop metric tol alpha n (alpha.map (nearest metric c))
          (newCenters alpha (alpha.map (nearest metric c)) c) := fun n => by rw [kmLoop]
    rw [e (m + 1), e m]
    split_ifs with h
    · left; rfl
    · exact kmLoop_snoc metric tol alpha m _ _

/-- Allowing one more iteration does not raise the inertia, as long as every inertia so far is defined. -/
theorem C95_run {k m : ℕ} {tol : ℝ} {init : List ℕ} {alpha : List ℝ} (hk : 0 < k) (hn : k ≤ alpha.length)
    (hi : init.length = k) (hm : 0 < m)
    (hdef : ∀ j, 0 < j → j ≤ m + 1 → (kmFit "angularseparation" k j tol init alpha).inertia ≠ none) :
    ∃ v v', (kmFit "angularseparation" k m tol init alpha).inertia = some v ∧
      (kmFit "angularseparation" k (m + 1) tol init alpha).inertia = some v' ∧ v' ≤ v := by
  have hn' : ¬ alpha.length < k := by omega
  simp only [kmFit, if_neg hn'] at hdef ⊢
  set S := fun j => kmLoop "angularseparation" tol alpha j (alpha.map fun _ => 0)
    (init.map fun i => some (alpha.getD i 0)) with hS
  have hdefS : ∀ j, 0 < j → j ≤ m + 1 → kmInertia "angularseparation" alpha (S j).1 (S j).2 ≠ none := hdef
  change ∃ v v', kmInertia "angularseparation" alpha (S m).1 (S m).2 = some v ∧
    kmInertia "angularseparation" alpha (S (m + 1)).1 (S (m + 1)).2 = some v' ∧ v' ≤ v
  have hlenS : ∀ j, (S j).2.length = k := by
    intro j
    rcases Nat.eq_zero_or_pos j with rfl | hj
    · simp [hS, kmLoop, hi]
    · obtain ⟨prev, h1, -, h3⟩ := kmLoop_spec "angularseparation" tol alpha j (alpha.map fun _ => 0)
        (init.map fun i => some (alpha.getD i 0)) hj
      rw [List.length_map, hi] at h1
      show (kmLoop _ _ _ _ _ _).2.length = k
      rw [h3, newCenters, List.length_mapIdx, h1]
  have hlabS : ∀ j, 0 < j → (S j).1.length = alpha.length ∧ ∀ l ∈ (S j).1, l < k := by
    intro j hj
    obtain ⟨prev, h1, h2, -⟩ := kmLoop_spec "angularseparation" tol alpha j (alpha.map fun _ => 0)
        (init.map fun i => some (alpha.getD i 0)) hj
    rw [List.length_map, hi] at h1
    have hne : prev ≠ [] := by rintro rfl; simp at h1; omega
    have h2' : (S j).1 = alpha.map (nearest "angularseparation" prev) := h2
    rw [h2', List.length_map]
    refine ⟨rfl, fun l hl => ?_⟩
    obtain ⟨x, -, rfl⟩ := List.mem_map.1 hl
    rw [← h1]
    exact (nearest_isLabel _ hne x).1
  have hstep : ∀ j, S (j + 1) = S j ∨ S (j + 1) = (alpha.map (nearest "angularseparation" (S j).2),
      newCenters alpha (alpha.map (nearest "angularseparation" (S j).2)) (S j).2) :=
    fun j => kmLoop_snoc _ _ _ _ _ _
  have hsome : ∀ j, j ≤ m + 1 → ∀ o ∈ (S j).2, o ≠ none := by
    intro j
    induction j with
    | zero =>
      intro _ o ho
      simp only [hS, kmLoop, List.mem_map] at ho
      obtain ⟨i, -, rfl⟩ := ho
      simp
    | succ j ih =>
      intro hj o ho
      have ih' := ih (by omega)
      rcases hstep j with h | h
      · rw [h] at ho
        exact ih' o ho
      · have hd := hdefS (j + 1) (by omega) hj
        have h2 : (S (j + 1)).2 = newCenters alpha (S (j + 1)).1 (S j).2 := by rw [h]
        obtain ⟨c, hc, hco⟩ := List.mem_iff_getElem.1 ho
        obtain ⟨new, hn1, hn2⟩ := newCenters_isCenter alpha (S (j + 1)).1 (S j).2 (c := c)
          (by rw [hlenS] at hc ⊢; exact hc)
        rw [← h2, List.getElem?_eq_getElem hc, hco, Option.some.injEq] at hn1
        subst hn1
        rcases hn2 with ⟨-, h3⟩ | ⟨h3, h4, -⟩ | ⟨mm, -, -, h3, -⟩
        · rw [h3]
          exact ih' _ (List.getElem_mem _)
        · exfalso
          apply hd
          obtain ⟨x, hx⟩ := List.exists_mem_of_ne_nil _ h3
          rw [withLabel, List.mem_map] at hx
          obtain ⟨p, hp, -⟩ := hx
          obtain ⟨hp1, hp2⟩ := List.mem_filter.1 hp
          simp only [decide_eq_true_eq] at hp2
          rw [kmInertia, optMapM_none hp1]
          · rfl
          · rw [hp2, List.getD_eq_getElem?_getD, List.getElem?_eq_getElem hc, hco, h4]
            rfl
        · rw [h3]; simp
  obtain ⟨v, hv⟩ := Option.ne_none_iff_exists'.1 (hdefS m hm (by omega))
  obtain ⟨v', hv'⟩ := Option.ne_none_iff_exists'.1 (hdefS (m + 1) (by omega) le_rfl)
  refine ⟨v, v', hv, hv', ?_⟩
  rcases hstep m with h | h
  · rw [h, hv] at hv'
    exact (Option.some.inj hv').ge
  · have hs := hsome (m + 1) le_rfl
    rw [h] at hv' hs
    exact C95_pass (hlabS m hm).1 (by rw [hlenS]; exact (hlabS m hm).2) (hsome m (by omega)) hs hv hv'

/-- Three equal angles and one cluster meet the hypotheses of `C95_center`. -/
example : IsCenter [1, 1, 1] none (some 1) := by
  right; right
  refine ⟨1, 1, by simp, rfl, by norm_num, by norm_num, by linarith [pi_gt_three], ?_⟩
  simp [resultant]
  ring

private lemma run_example (j : ℕ) : ∀ (l : List ℕ) (a : ℝ),
    kmLoop "angularseparation" 0 [0, 1] (j + 1) l [some a] = ([0, 0], [some ((0 + 1) / 2)]) := by
  have hl : ∀ a x, nearest "angularseparation" [some a] x = 0 := by
    intro a x
    simpa using (nearest_isLabel "angularseparation" (centers := [some a]) (by simp) x).1
  have hc : ∀ a : ℝ, newCenters [0, 1] [0, 0] [some a] = [some ((0 + 1) / 2)] := by
    intro a
    have h1 : (1 : ℝ) / 10 ^ 12 < cos ((1 - 0) / 2) := by
      have := one_sub_sq_div_two_le_cos (x := (1 - 0) / 2)
      norm_num at this ⊢
      linarith
    have := mean_pair (a := 0) (b := 1) (by norm_num) (by linarith [pi_gt_three]) h1
    simp only [newCenters, List.mapIdx_cons, List.mapIdx_nil, List.zip_cons_cons, List.zip_nil_right,
      List.filterMap_cons, List.filterMap_nil, if_true]
    rw [if_neg (by simp), this]
  induction j with
  | zero =>
    intro l a
    rw [kmLoop]
    simp only [List.map_cons, List.map_nil, hl, hc]
    split_ifs <;> simp [kmLoop]
  | succ j ih =>
    intro l a
    rw [kmLoop]
    simp only [List.map_cons, List.map_nil, hl, hc, ih]
    split_ifs <;> rfl

/-- A run whose inertias are all defined, as `C95_run` asks. -/
example : ∃ v v', (kmFit "angularseparation" 1 2 0 [0] [0, 1]).inertia = some v ∧
      (kmFit "angularseparation" 1 3 0 [0] [0, 1]).inertia = some v' ∧ v' ≤ v := by
  refine C95_run one_pos (by simp) rfl (by norm_num) fun j hj _ => ?_
  obtain ⟨j, rfl⟩ := Nat.exists_eq_succ_of_ne_zero hj.ne'
  rw [kmFit, if_neg (by simp)]
  have := run_example j ([(0 : ℝ), 1].map fun _ => 0) 0
  simp only [List.map_cons, List.map_nil, List.getD_cons_zero] at this ⊢
  rw [this]
  simp [kmInertia, kmDist]

end Verif.Props
