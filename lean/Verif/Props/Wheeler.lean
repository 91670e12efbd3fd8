import Verif.Lemmas.Ranks
import Mathlib.RingTheory.RootsOfUnity.Complex

/-!
# C39: the uniform-scores test
-/

set_option autoImplicit false

namespace Verif.Props

open Real Verif Verif.Spec

private lemma rankSq_eq (l : List ℝ) : rankSq l = ‖resultant l‖ ^ 2 := by
  have hre : (resultant l).re = (l.map cos).sum := by
    induction l with
    | nil => simp
    | cons a l ih =>
      rw [resultant_cons, Complex.add_re, ih, Complex.exp_ofReal_mul_I_re]; simp
  have him : (resultant l).im = (l.map sin).sum := by
    induction l with
    | nil => simp
    | cons a l ih =>
      rw [resultant_cons, Complex.add_im, Complex.exp_ofReal_mul_I_im]; simp_all
  rw [← Complex.normSq_eq_norm_sq, Complex.normSq_apply, hre, him]
  unfold rankSq; ring

private lemma uniqueR_perm {l : List ℝ} (h : l.Nodup) : (uniqueR l).Perm l := by
  unfold uniqueR
  rw [List.Nodup.dedup ((sortR_perm l).nodup_iff.2 h)]
  exact sortR_perm l

private lemma close_at {u : List ℝ} {v : ℝ} (hu : u.Nodup) (hv : v ∈ u)
    (hs : Separated (1 / 10 ^ 8) u) : closePositions u v atolDefault = [u.idxOf v] :=
  closePositions_eq hu hv (by unfold atolDefault; positivity) hs

private lemma circRank_eq {L x : List ℝ} (hn : L.Nodup) (hs : Separated (1 / 10 ^ 8) L)
    (hx : ∀ v ∈ x, v ∈ L) : circRank (uniqueR L) x L.length = .ok (x.map (uniformScore L)) := by
  unfold circRank
  apply mapM_of_ok
  rw [List.forall₂_map_right_iff, List.forall₂_same]
  intro v hv
  have hvu : v ∈ uniqueR L := mem_uniqueR.2 (hx v hv)
  rw [close_at (uniqueR_nodup L) hvu (separated_unique hs)]
  have := idxOf_eq_countLt (uniqueR_sorted L) hvu
  have h2 : countLe (uniqueR L) v = countLe L v := (uniqueR_perm hn).countP_eq _
  simp only [uniformScore]
  rw [← h2, ← this]
  push_cast; rfl

/-- The statistic for two groups, in terms of the resultant lengths of the uniform scores. -/
noncomputable def twoSampleW (x y : List ℝ) : ℝ :=
  2 * ((x.length + y.length : ℕ) - 1 : ℝ) * ‖resultant (x.map (uniformScore (x ++ y)))‖ ^ 2
    / (x.length * y.length)

/-- The statistic for three or more groups. -/
noncomputable def multiSampleW (gs : List (List ℝ)) : ℝ :=
  2 * (gs.map fun g => ‖resultant (g.map (uniformScore gs.flatten))‖ ^ 2 / g.length).sum

private lemma ranks_eq {gs : List (List ℝ)} {L : List ℝ} (hL : L = gs.flatten) (hn : L.Nodup)
    (hs : Separated (1 / 10 ^ 8) L) :
    ((gs.map plainSample).mapM fun s => circRank (uniqueR L) s.expand L.length)
      = .ok (gs.map fun g => g.map (uniformScore L)) := by
  apply mapM_of_ok
  rw [List.forall₂_map_left_iff, List.forall₂_map_right_iff, List.forall₂_same]
  intro g hg
  rw [plainSample_expand]
  apply circRank_eq hn hs
  intro v hv
  rw [hL]
  exact List.mem_flatten.2 ⟨g, hg, hv⟩

private lemma total_plain (gs : List (List ℝ)) :
    ((gs.map plainSample).map CSample.n).sum = gs.flatten.length
      ∧ ((gs.map plainSample).map CSample.expand) = gs := by
  constructor
  · rw [List.map_map, List.length_flatten]
    rfl
  · rw [List.map_map]
    conv_rhs => rw [← List.map_id gs]
    exact List.map_congr_left fun g _ => plainSample_expand g

/-- C39. Two samples without ties (all observations different and tellable apart): the statistic is
`2(N-1)‖r₁‖²/(n₁n₂)` with `r₁` the resultant of the first sample's uniform scores. -/
theorem C39_two_samples (x y : List ℝ) (sf : ℝ → ℕ → ℝ) (hx : x ≠ []) (hy : y ≠ [])
    (hn : (x ++ y).Nodup) (hs : Separated (1 / 10 ^ 8) (x ++ y)) :
    wheelerWatson [plain x, plain y] sf = .ok (twoSampleW x y, sf (twoSampleW x y) 2, 2) := by
  have hc := coerceSamples_plain (gs := [x, y]) (by simp) (by simp [hx, hy])
  have ht := total_plain [x, y]
  have hr := ranks_eq (gs := [x, y]) (L := x ++ y) (by simp) hn hs
  simp only [List.map_cons, List.map_nil] at hc ht hr
  have hfl : [x, y].flatten = x ++ y := by simp
  rw [hfl] at ht
  unfold wheelerWatson
  rw [hc]
  simp only [Except.bind]
  unfold wheelerOf
  simp only [List.map_cons, List.map_nil]
  rw [ht.1, ht.2, hfl, hr]
  simp only [Except.bind, rankSq_eq, List.length_append]
  rfl

/-- C39. Three or more samples without ties: the statistic is `2 Σ ‖r_i‖²/n_i`. -/
theorem C39_many_samples (gs : List (List ℝ)) (sf : ℝ → ℕ → ℝ) (hk : 3 ≤ gs.length)
    (hne : ∀ g ∈ gs, g ≠ []) (hn : gs.flatten.Nodup) (hs : Separated (1 / 10 ^ 8) gs.flatten) :
    wheelerWatson (gs.map plain) sf
      = .ok (multiSampleW gs, sf (multiSampleW gs) (2 * (gs.length - 1)), 2 * (gs.length - 1)) := by
  have hc := coerceSamples_plain (gs := gs) (by intro h; simp [h] at hk) hne
  have ht := total_plain gs
  have hr := ranks_eq (gs := gs) rfl hn hs
  unfold wheelerWatson
  rw [hc]
  simp only [Except.bind]
  unfold wheelerOf
  simp only
  rw [ht.1, ht.2, hr]
  simp only [Except.bind, List.length_map]
  have hW : (List.zipWith (fun r (s : CSample) => rankSq r / s.n)
      (gs.map fun g => g.map (uniformScore gs.flatten)) (gs.map plainSample)).sum * 2
      = multiSampleW gs := by
    unfold multiSampleW
    rw [mul_comm]
    congr 2
    rw [List.zipWith_map, List.zipWith_self]
    apply List.map_congr_left
    intro g _
    rw [rankSq_eq]; rfl
  match gs, hk, hW with
  | _ :: _ :: _ :: _, _, hW =>
    simp only [List.map_cons] at hW ⊢
    rw [if_pos (by simp), hW]

/-- C39. Whatever the data, ties or not, a returned statistic is not negative. -/
theorem C39_nonneg (samples : List (List ℝ × List ℝ)) (sf : ℝ → ℕ → ℝ) (W p : ℝ) (df : ℕ)
    (h : wheelerWatson samples sf = .ok (W, p, df)) : 0 ≤ W := by
  unfold wheelerWatson at h
  cases hc : coerceSamples samples with
  | error e => rw [hc] at h; cases h
  | ok ss =>
    rw [hc] at h
    simp only [Except.bind] at h
    obtain ⟨-, hf⟩ := coerceSamples_ok hc
    have hv : ∀ s ∈ ss, s.Valid := fun s hs => by
      obtain ⟨p, -, hp⟩ := forall₂_exists_right hf hs; exact hp.1
    unfold wheelerOf at h
    simp only at h
    cases hr : ss.mapM fun s => circRank (uniqueR (ss.map CSample.expand).flatten) s.expand
        (ss.map CSample.n).sum with
    | error e => rw [hr] at h; cases h
    | ok ranks =>
      rw [hr] at h
      simp only [Except.bind] at h
      split at h
      · simp only [Except.ok.injEq, Prod.mk.injEq] at h
        rw [← h.1]
        rename_i r1 r2 s1 s2
        have h1 := (hv s1 (by simp)).n_pos
        have h1' : (1 : ℝ) ≤ (([s1, s2].map CSample.n).sum : ℕ) := by
          simp only [List.map_cons, List.sum_cons]
          exact_mod_cast (by omega : 1 ≤ s1.n + _)
        rw [rankSq_eq]
        have : 0 ≤ (([s1, s2].map CSample.n).sum : ℝ) - 1 := by linarith
        positivity
      · split_ifs at h with hk
        simp only [Except.ok.injEq, Prod.mk.injEq] at h
        rw [← h.1]
        apply mul_nonneg _ (by norm_num)
        apply List.sum_nonneg
        intro z hz
        obtain ⟨i, hi, rfl⟩ := List.getElem_of_mem hz
        rw [List.getElem_zipWith, rankSq_eq]
        positivity

lemma resultant_all {L : List ℝ} (hn : L.Nodup) (h2 : 2 ≤ L.length) :
    resultant (L.map (uniformScore L)) = 0 := by
  have hp := uniqueR_perm hn
  have hu := uniqueR_sorted L
  rw [resultant_perm ((hp.symm.map _)), show (uniqueR L).map (uniformScore L)
      = (List.range L.length).map fun i : ℕ => 2 * π / L.length * ((i + 1 : ℕ) : ℝ) from ?_]
  · unfold resultant
    rw [List.map_map]
    set ζ := Complex.exp (2 * π * Complex.I / L.length) with hζ
    have hprim : IsPrimitiveRoot ζ L.length := Complex.isPrimitiveRoot_exp _ (by omega)
    have hz := hprim.geom_sum_eq_zero (by omega)
    have : ((List.range L.length).map ((fun a : ℝ => Complex.exp ((a : ℂ) * Complex.I)) ∘
        fun i : ℕ => 2 * π / L.length * ((i + 1 : ℕ) : ℝ)))
        = (List.range L.length).map fun i => ζ * ζ ^ i := by
      apply List.map_congr_left
      intro i _
      simp only [Function.comp]
      rw [← pow_succ', hζ, ← Complex.exp_nat_mul]
      congr 1
      push_cast
      ring
    rw [this, ← List.sum_toFinset _ List.nodup_range, List.toFinset_range, ← Finset.mul_sum, hz,
      mul_zero]
  · apply List.ext_getElem
    · simp [hp.length_eq]
    · intro i h1 h2
      rw [List.length_map] at h1
      simp only [List.getElem_map, List.getElem_range, uniformScore]
      have hi := idxOf_eq_countLt hu (List.getElem_mem h1)
      rw [(uniqueR_nodup L).idxOf_getElem] at hi
      rw [hi, show countLe (uniqueR L) (uniqueR L)[i] = countLe L (uniqueR L)[i] from hp.countP_eq _]

private lemma score_perm {L L' : List ℝ} (h : L.Perm L') (v : ℝ) : uniformScore L v = uniformScore L' v := by
  unfold uniformScore countLe; rw [h.countP_eq, h.length_eq]

/-- C39. For two samples without ties it does not matter which is listed first. -/
theorem C39_swap (x y : List ℝ) (sf : ℝ → ℕ → ℝ) (hx : x ≠ []) (hy : y ≠ [])
    (hn : (x ++ y).Nodup) (hs : Separated (1 / 10 ^ 8) (x ++ y)) :
    wheelerWatson [plain y, plain x] sf = wheelerWatson [plain x, plain y] sf := by
  have hperm : (y ++ x).Perm (x ++ y) := List.perm_append_comm
  have hs' : Separated (1 / 10 ^ 8) (y ++ x) := by
    intro a ha b hb
    exact hs a (hperm.mem_iff.1 ha) b (hperm.mem_iff.1 hb)
  rw [C39_two_samples x y sf hx hy hn hs,
    C39_two_samples y x sf hy hx (hperm.nodup_iff.2 hn) hs']
  have hlx := List.length_pos_iff.2 hx
  have hly := List.length_pos_iff.2 hy
  have h0 := resultant_all hn (by rw [List.length_append]; omega)
  rw [List.map_append, resultant_append] at h0
  have hW : twoSampleW y x = twoSampleW x y := by
    unfold twoSampleW
    have : (y.map (uniformScore (y ++ x))) = y.map (uniformScore (x ++ y)) :=
      List.map_congr_left fun v _ => score_perm hperm v
    rw [this, eq_neg_of_add_eq_zero_right h0, norm_neg, add_comm y.length, mul_comm (y.length : ℝ)]
  rw [hW]

private lemma score_rot (L : List ℝ) (s : ℝ) (hL0 : L ≠ []) (hL : ∀ a ∈ L, 0 ≤ a ∧ a < 2 * π)
    (hs : 0 ≤ s ∧ s < 2 * π) (v : ℝ) (hv : v ∈ L) :
    SameDir (uniformScore (L.map (rot s)) (rot s v)) (uniformScore L v
      + -(2 * π / L.length * (L.countP fun a => decide (a < 2 * π - s)))) := by
  have hl : (L.length : ℝ) ≠ 0 := by
    have := List.length_pos_iff.2 hL0
    positivity
  unfold uniformScore
  rw [List.length_map, countLe_rot L s v hL (hL v hv) hs]
  by_cases h : v < 2 * π - s
  · refine ⟨1, ?_⟩
    simp only [h, if_true]
    push_cast
    field_simp
    ring
  · refine ⟨0, ?_⟩
    simp only [h, if_false]
    push_cast
    ring

private lemma flatten_rotated {t : ℝ} {gs hs : List (List ℝ)} (h : List.Forall₂ (IsRotated t) gs hs) :
    IsRotated t gs.flatten hs.flatten := by
  induction h with
  | nil => exact ⟨[], .nil, .refl _⟩
  | cons hab _ ih =>
    obtain ⟨z1, h1, p1⟩ := hab
    obtain ⟨z2, h2, p2⟩ := ih
    exact ⟨z1 ++ z2, List.rel_append h1 h2, p1.append p2⟩

private lemma group_rot {t : ℝ} {L L' g g' : List ℝ} (hL : ∀ a ∈ L, 0 ≤ a ∧ a < 2 * π)
    (hrL : IsRotated t L L') (hg : ∀ v ∈ g, v ∈ L) (hrg : IsRotated t g g') :
    ‖resultant (g'.map (uniformScore L'))‖ = ‖resultant (g.map (uniformScore L))‖ := by
  obtain ⟨hsm, hpL⟩ := isRotated_rot hrL hL
  obtain ⟨-, hpg⟩ := isRotated_rot hrg (fun a ha => hL a (hg a ha))
  set s := angmod2pi t
  by_cases hg0 : g = []
  · subst hg0
    simp only [List.map_nil, List.perm_nil] at hpg
    simp [hpg]
  · have hL0 : L ≠ [] := by
      intro h
      obtain ⟨v, hv⟩ := List.exists_mem_of_ne_nil g hg0
      have := hg v hv
      simp [h] at this
    rw [resultant_perm (hpg.map _), List.map_map]
    apply norm_resultant_rotate (-(2 * π / L.length * (L.countP fun a => decide (a < 2 * π - s))))
    rw [List.forall₂_map_left_iff, List.forall₂_map_right_iff, List.forall₂_same]
    intro v hv
    simp only [Function.comp]
    rw [score_perm hpL]
    exact score_rot L s hL0 hL hsm v (hg v hv)

/-- C39. Two samples without ties: turning all observations of both samples by the same angle (and
wrapping back into `[0, 2π)`, in any order) does not change the result. -/
theorem C39_rotate_two (x y x' y' : List ℝ) (t : ℝ) (sf : ℝ → ℕ → ℝ) (hx : x ≠ []) (hy : y ≠ [])
    (hr : ∀ a ∈ x ++ y, 0 ≤ a ∧ a < 2 * π) (hx' : IsRotated t x x') (hy' : IsRotated t y y')
    (hn : (x ++ y).Nodup) (hn' : (x' ++ y').Nodup)
    (hs : Separated (1 / 10 ^ 8) (x ++ y)) (hs' : Separated (1 / 10 ^ 8) (x' ++ y')) :
    wheelerWatson [plain x', plain y'] sf = wheelerWatson [plain x, plain y] sf := by
  have hpx := (isRotated_rot hx' fun a ha => hr a (by simp [ha])).2
  have hpy := (isRotated_rot hy' fun a ha => hr a (by simp [ha])).2
  have hxl : x'.length = x.length := by rw [hpx.length_eq, List.length_map]
  have hyl : y'.length = y.length := by rw [hpy.length_eq, List.length_map]
  have hx0 : x' ≠ [] := by rw [← List.length_pos_iff, hxl]; exact List.length_pos_iff.2 hx
  have hy0 : y' ≠ [] := by rw [← List.length_pos_iff, hyl]; exact List.length_pos_iff.2 hy
  have hf := flatten_rotated (.cons hx' (.cons hy' .nil))
  simp only [List.flatten_cons, List.flatten_nil, List.append_nil] at hf
  rw [C39_two_samples x y sf hx hy hn hs, C39_two_samples x' y' sf hx0 hy0 hn' hs']
  have : twoSampleW x' y' = twoSampleW x y := by
    unfold twoSampleW
    rw [hxl, hyl, group_rot hr hf (fun v hv => by simp [hv]) hx']
  rw [this]

/-- C39. Three or more samples without ties: the same invariance. -/
theorem C39_rotate_many (gs hs : List (List ℝ)) (t : ℝ) (sf : ℝ → ℕ → ℝ) (hk : 3 ≤ gs.length)
    (hne : ∀ g ∈ gs, g ≠ []) (hr : ∀ a ∈ gs.flatten, 0 ≤ a ∧ a < 2 * π)
    (h : List.Forall₂ (IsRotated t) gs hs) (hn : gs.flatten.Nodup) (hn' : hs.flatten.Nodup)
    (hsep : Separated (1 / 10 ^ 8) gs.flatten) (hsep' : Separated (1 / 10 ^ 8) hs.flatten) :
    wheelerWatson (hs.map plain) sf = wheelerWatson (gs.map plain) sf := by
  have hlen := h.length_eq
  have hgl : ∀ g g', g ∈ gs → IsRotated t g g' → g'.length = g.length := by
    intro g g' _ hg
    obtain ⟨z, hz, hp⟩ := hg
    rw [hp.length_eq, ← hz.length_eq]
  have hne' : ∀ g ∈ hs, g ≠ [] := by
    intro g' hg'
    obtain ⟨g, hg, hrot⟩ := forall₂_exists_right h hg'
    rw [← List.length_pos_iff, hgl g g' hg hrot]
    exact List.length_pos_iff.2 (hne g hg)
  have hf := flatten_rotated h
  rw [C39_many_samples gs sf hk hne hn hsep, C39_many_samples hs sf (by omega) hne' hn' hsep', ← hlen]
  have : multiSampleW hs = multiSampleW gs := by
    unfold multiSampleW
    congr 2
    have aux : ∀ {as bs : List (List ℝ)}, List.Forall₂ (IsRotated t) as bs → (∀ g ∈ as, g ∈ gs) →
        (bs.map fun g => ‖resultant (g.map (uniformScore hs.flatten))‖ ^ 2 / (g.length : ℝ))
          = as.map fun g => ‖resultant (g.map (uniformScore gs.flatten))‖ ^ 2 / (g.length : ℝ) := by
      intro as bs hab
      induction hab with
      | nil => intro _; rfl
      | @cons a b as bs hab _ ih =>
        intro hin
        simp only [List.map_cons]
        rw [ih fun g hg => hin g (by simp [hg]), hgl a b (hin a (by simp)) hab,
          group_rot hr hf (fun v hv => List.mem_flatten.2 ⟨a, hin a (by simp), hv⟩) hab]
    exact aux h fun g hg => hg
  rw [this]

/-- C39. Three or more samples without ties: the order in which they are listed does not matter. -/
theorem C39_order_many (gs hs : List (List ℝ)) (sf : ℝ → ℕ → ℝ) (hk : 3 ≤ gs.length) (hne : ∀ g ∈ gs, g ≠ [])
    (h : gs.Perm hs) (hn : gs.flatten.Nodup) (hsep : Separated (1 / 10 ^ 8) gs.flatten) :
    wheelerWatson (hs.map plain) sf = wheelerWatson (gs.map plain) sf := by
  have hsep' : Separated (1 / 10 ^ 8) hs.flatten := fun a ha b hb =>
    hsep a (h.flatten.mem_iff.2 ha) b (h.flatten.mem_iff.2 hb)
  rw [C39_many_samples gs sf hk hne hn hsep, C39_many_samples hs sf (h.length_eq ▸ hk)
    (fun g hg => hne g (h.mem_iff.2 hg)) (h.flatten.nodup_iff.1 hn) hsep', h.length_eq]
  have : multiSampleW hs = multiSampleW gs := by
    unfold multiSampleW
    have e : uniformScore hs.flatten = uniformScore gs.flatten := funext fun v => score_perm h.symm.flatten v
    rw [e, (h.symm.map _).sum_eq]
  rw [this]

/-- C39. With ties the result does depend on the order: `[1, 1]` against `[1, 2]` gives 6 one way
round and 3 the other. -/
theorem C39_ties_asymmetric (sf : ℝ → ℕ → ℝ) :
    wheelerWatson [plain [1, 1], plain [1, 2]] sf = .ok (6, sf 6 2, 2) ∧
      wheelerWatson [plain [1, 2], plain [1, 1]] sf = .ok (3, sf 3 2, 2) := by
  have hu : ∀ l : List ℝ, l.Perm [1, 1, 1, 2] → uniqueR l = [1, 2] := by
    intro l hl
    unfold uniqueR
    rw [sortR_eq_of_perm hl, sortR_eq_self (by simp)]
    rw [List.dedup_cons_of_mem (by simp), List.dedup_cons_of_mem (by simp),
      List.dedup_cons_of_notMem (by simp), List.dedup_cons_of_notMem (by simp), List.dedup_nil]
  have hsep : Separated (1 / 10 ^ 8) ([1, 2] : List ℝ) := by
    intro a ha b hb hab
    simp at ha hb
    rcases ha with rfl | rfl <;> rcases hb with rfl | rfl
    all_goals first | exact absurd rfl hab | norm_num [abs_of_pos, abs_of_neg]
  have h1 : closePositions [1, 2] 1 atolDefault = [0] := by
    rw [close_at (by simp) (by simp) hsep]; simp
  have h2 : closePositions [1, 2] 2 atolDefault = [1] := by
    rw [close_at (by simp) (by simp) hsep]; simp
  have hN4 : 2 * π / 4 = π / 2 := by ring
  have e11 : circRank [1, 2] [1, 1] 4 = .ok [π / 2, π / 2] := by
    unfold circRank
    apply mapM_of_ok
    refine .cons ?_ (.cons ?_ .nil) <;> · rw [h1]; simp [hN4]
  have e12 : circRank [1, 2] [1, 2] 4 = .ok [π / 2, π] := by
    unfold circRank
    apply mapM_of_ok
    refine .cons ?_ (.cons ?_ .nil)
    · rw [h1]; simp [hN4]
    · rw [h2]; simp; ring
  have hu1 := hu ([1, 1] ++ [1, 2]) (by simp)
  have hu2 := hu ([1, 2] ++ [1, 1])
    (List.Perm.cons 1 (List.perm_append_comm (l₁ := ([2] : List ℝ)) (l₂ := [1, 1])))
  have key : ∀ (x y r s : List ℝ) (W : ℝ), x ≠ [] → y ≠ [] → uniqueR (x ++ y) = [1, 2] →
      x.length = 2 → y.length = 2 → circRank [1, 2] x 4 = .ok r → circRank [1, 2] y 4 = .ok s →
      2 * (4 - 1) * rankSq r / (2 * 2) = W →
      wheelerWatson [plain x, plain y] sf = .ok (W, sf W 2, 2) := by
    intro x y r s W hx hy hu hlx hly hr hs hW
    have hc := coerceSamples_plain (gs := [x, y]) (by simp) (by simp [hx, hy])
    have ht := total_plain [x, y]
    have hfl : [x, y].flatten = x ++ y := by simp
    simp only [List.map_cons, List.map_nil] at hc ht
    rw [hfl] at ht
    have hm : [plainSample x, plainSample y].mapM (fun s => circRank [1, 2] s.expand 4) = .ok [r, s] := by
      apply mapM_of_ok
      refine .cons ?_ (.cons ?_ .nil)
      · rw [plainSample_expand, hr]
      · rw [plainSample_expand, hs]
    unfold wheelerWatson
    rw [hc]
    simp only [Except.bind]
    unfold wheelerOf
    simp only [List.map_cons, List.map_nil]
    rw [ht.1, ht.2, hfl, hu, List.length_append, hlx, hly, hm]
    simp only [Except.bind]
    have h1 : (plainSample x).n = 2 := hlx
    have h2 : (plainSample y).n = 2 := hly
    rw [h1, h2]
    have : 2 * (((2 + 2 : ℕ) : ℝ) - 1) * rankSq r / ((2 : ℕ) * (2 : ℕ)) = W := by
      rw [← hW]; norm_num
    rw [this]
    rfl
  constructor
  · refine key _ _ _ _ 6 (by simp) (by simp) hu1 (by simp) (by simp) e11 e12 ?_
    simp [rankSq]; norm_num
  · refine key _ _ _ _ 3 (by simp) (by simp) hu2 (by simp) (by simp) e12 e11 ?_
    simp [rankSq]; norm_num

/-- Samples without ties, to which the theorems above apply. -/
example : ([1, 3] ++ [2, 4] : List ℝ).Nodup ∧ Separated (1 / 10 ^ 8) ([1, 3] ++ [2, 4]) := by
  constructor
  · simp
  · intro a ha b hb hab
    simp at ha hb
    rcases ha with rfl | rfl | rfl | rfl <;> rcases hb with rfl | rfl | rfl | rfl
    all_goals first | exact absurd rfl hab | norm_num [abs_of_pos, abs_of_neg]

end Verif.Props
