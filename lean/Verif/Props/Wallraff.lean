import Verif.Lemmas.Ranks
import Verif.Lemmas.Dist
import Verif.Props.Utils
import Verif.Props.Dist
import Mathlib.Analysis.Real.Pi.Bounds

/-!
# C40, C31, C89: Wallraff test and angular randomisation test
-/

set_option autoImplicit false

namespace Verif.Props

open Real Verif Verif.Spec

/-! ## C40 -/

private lemma mw_nil (a : List ℝ) : mannWhitney a [] = 0 := by
  unfold mannWhitney
  induction a with
  | nil => simp
  | cons s a ih => simp_all

private lemma mw_cons_left (s : ℝ) (a b : List ℝ) :
    mannWhitney (s :: a) b
      = (b.map fun t => if s < t then (1 : ℝ) else if s = t then 1 / 2 else 0).sum + mannWhitney a b := by
  unfold mannWhitney; simp

private lemma mw_cons_right (t : ℝ) (a b : List ℝ) :
    mannWhitney a (t :: b)
      = (a.map fun s => if s < t then (1 : ℝ) else if s = t then 1 / 2 else 0).sum + mannWhitney a b := by
  unfold mannWhitney
  induction a with
  | nil => simp
  | cons s a ih => simp only [List.map_cons, List.sum_cons] at ih ⊢; rw [ih]; ring

private lemma mw_row (s : ℝ) (b : List ℝ) :
    (b.map fun t => if s < t then (1 : ℝ) else if s = t then 1 / 2 else 0).sum
      + (b.map fun t => if t < s then (1 : ℝ) else if t = s then 1 / 2 else 0).sum = b.length := by
  induction b with
  | nil => simp
  | cons t b ihb =>
    simp only [List.map_cons, List.sum_cons, List.length_cons]
    push_cast
    rw [← ihb]
    rcases lt_trichotomy s t with h | h | h
    · rw [if_pos h, if_neg (by linarith), if_neg (by linarith)]; ring
    · subst h; simp; ring
    · rw [if_neg (by linarith), if_neg (by linarith), if_pos h]; ring

private lemma mw_add (a b : List ℝ) : mannWhitney a b + mannWhitney b a = a.length * b.length := by
  induction a with
  | nil => rw [mw_nil]; simp [mannWhitney]
  | cons s a ih =>
    rw [mw_cons_left, mw_cons_right, List.length_cons]
    push_cast
    linarith [mw_row s b]

private lemma mw_nonneg (a b : List ℝ) : 0 ≤ mannWhitney a b := by
  unfold mannWhitney
  apply List.sum_nonneg
  intro z hz
  obtain ⟨s, -, rfl⟩ := List.mem_map.1 hz
  apply List.sum_nonneg
  intro z hz
  obtain ⟨t, -, rfl⟩ := List.mem_map.1 hz
  split_ifs <;> norm_num

/-- Rank sum of the first sample. -/
private lemma rank_term (l : List ℝ) (s : ℝ) :
    ((l.countP fun y => decide (y < s) : ℕ) : ℝ) + (l.count s : ℝ) / 2
      = (l.map fun t => if t < s then (1 : ℝ) else if t = s then 1 / 2 else 0).sum := by
  induction l with
  | nil => simp
  | cons t l ih =>
    simp only [List.countP_cons, List.count_cons, List.map_cons, List.sum_cons]
    push_cast
    rw [← ih]
    rcases lt_trichotomy t s with h | h | h
    · simp [h, h.ne]; ring
    · subst h; simp; ring
    · simp [not_lt.2 h.le, h.ne']

private lemma rank_sum (a l : List ℝ) :
    (a.map fun x => ((l.countP fun y => decide (y < x) : ℕ) : ℝ) + ((l.count x : ℝ) + 1) / 2).sum
      = mannWhitney l a + a.length / 2 := by
  induction a with
  | nil => rw [mw_nil]; simp
  | cons x a ih =>
    rw [List.map_cons, List.sum_cons, ih, mw_cons_right, ← rank_term, List.length_cons]
    push_cast; ring

private lemma mw_append (a b c : List ℝ) : mannWhitney (a ++ b) c = mannWhitney a c + mannWhitney b c := by
  unfold mannWhitney; simp

private lemma wallraffOf_eq (d1 d2 : List ℝ) (sf : ℝ → ℝ) :
    wallraffOf d1 d2 d1.length d2.length sf =
      (let U := min (mannWhitney d1 d2) (mannWhitney d2 d1)
       let n1 : ℝ := d1.length
       let n2 : ℝ := d2.length
       (U, 2 * sf |(U - n1 * n2 / 2 + 0.5) / sqrt (n1 * n2 * (n1 + n2 + 1) / 12)|)) := by
  have hR : (((rankAvg (d1 ++ d2)).take d1.length).sum : ℝ)
      = mannWhitney d2 d1 + (d1.length : ℝ) * (d1.length + 1) / 2 := by
    unfold rankAvg
    rw [← List.map_take, List.take_left', rank_sum, mw_append]
    · have := mw_add d1 d1
      linarith
    · rfl
  have h1 : (d1.length : ℝ) * d2.length + d1.length * ((d1.length : ℝ) + 1) / 2
      - ((rankAvg (d1 ++ d2)).take d1.length).sum = mannWhitney d1 d2 := by
    rw [hR]; linarith [mw_add d1 d2]
  have h2 : (d1.length : ℝ) * d2.length - mannWhitney d1 d2 = mannWhitney d2 d1 := by
    linarith [mw_add d1 d2]
  unfold wallraffOf
  simp only
  rw [h1, h2]

private lemma wallraff_eq {x y : List ℝ} (hx : x ≠ []) (hy : y ≠ []) (a1 a2 : ℝ) (sf : ℝ → ℝ) :
    wallraff [plain x, plain y] [a1, a2] sf = .ok (wallraffOf (x.map fun v => angularDistance v a1)
      (y.map fun v => angularDistance v a2) (x.map fun v => angularDistance v a1).length
      (y.map fun v => angularDistance v a2).length sf) ∧
    wallraff [plain x, plain y] [a1] sf = wallraff [plain x, plain y] [a1, a1] sf := by
  have hc := coerceSamples_plain (gs := [x, y]) (by simp) (by simp [hx, hy])
  simp only [List.map_cons, List.map_nil] at hc
  unfold wallraff
  rw [hc]
  simp only [Except.bind, List.length_map, and_true]
  rfl

private lemma arc_map {x d : List ℝ} {a : ℝ} (h : List.Forall₂ (fun v d => IsArcDist d v a) x d) :
    d = x.map fun v => angularDistance v a := by
  induction h with
  | nil => rfl
  | cons hd _ ih =>
    rw [List.map_cons, ← ih, isArcDist_unique hd (C04_angularDistance_isArcDist _ _)]

/-- C40. Unit weights: with `d1`, `d2` the arc distances of the observations from the two reference
angles, `U` is the smaller of the two Mann-Whitney counts and the p value is the normal tail of the
standardised `U`. -/
theorem C40_wallraff (x y d1 d2 : List ℝ) (a1 a2 : ℝ) (sf : ℝ → ℝ) (hx : x ≠ []) (hy : y ≠ [])
    (h1 : List.Forall₂ (fun v d => IsArcDist d v a1) x d1)
    (h2 : List.Forall₂ (fun v d => IsArcDist d v a2) y d2) :
    ∃ U, wallraff [plain x, plain y] [a1, a2] sf =
        .ok (U, 2 * sf |(U - x.length * y.length / 2 + 0.5)
          / sqrt (x.length * y.length * (x.length + y.length + 1) / 12)|) ∧
      U = min (mannWhitney d1 d2) (mannWhitney d2 d1) ∧
      mannWhitney d1 d2 + mannWhitney d2 d1 = x.length * y.length ∧
      0 ≤ U ∧ U ≤ x.length * y.length / 2 := by
  have hl1 := h1.length_eq
  have hl2 := h2.length_eq
  rw [(wallraff_eq hx hy a1 a2 sf).1, ← arc_map h1, ← arc_map h2, wallraffOf_eq]
  have hadd := mw_add d1 d2
  refine ⟨_, by rw [hl1, hl2], rfl, by rw [hl1, hl2]; exact hadd, ?_, ?_⟩
  · exact le_min (mw_nonneg _ _) (mw_nonneg _ _)
  · rw [hl1, hl2, ← hadd]
    rcases le_total (mannWhitney d1 d2) (mannWhitney d2 d1) with h | h
    · rw [min_eq_left h]; linarith
    · rw [min_eq_right h]; linarith

/-- C40. A single reference angle is used for both samples. -/
theorem C40_scalar_angle (x y : List ℝ) (a : ℝ) (sf : ℝ → ℝ) (hx : x ≠ []) (hy : y ≠ []) :
    wallraff [plain x, plain y] [a] sf = wallraff [plain x, plain y] [a, a] sf :=
  (wallraff_eq hx hy a a sf).2

private lemma dist_forall (x : List ℝ) (a : ℝ) :
    List.Forall₂ (fun v d => IsArcDist d v a) x (x.map fun v => angularDistance v a) := by
  rw [List.forall₂_map_right_iff, List.forall₂_same]
  intro v _
  exact C04_angularDistance_isArcDist v a

/-- C40. Swapping the samples (with their reference angles) changes nothing. -/
theorem C40_swap (x y : List ℝ) (a1 a2 : ℝ) (sf : ℝ → ℝ) (hx : x ≠ []) (hy : y ≠ []) :
    wallraff [plain y, plain x] [a2, a1] sf = wallraff [plain x, plain y] [a1, a2] sf := by
  obtain ⟨U, h, hU, -⟩ := C40_wallraff x y _ _ a1 a2 sf hx hy (dist_forall x a1) (dist_forall y a2)
  obtain ⟨V, h', hV, -⟩ := C40_wallraff y x _ _ a2 a1 sf hy hx (dist_forall y a2) (dist_forall x a1)
  rw [min_comm, ← hU] at hV
  rw [h, h', hV, mul_comm (y.length : ℝ), add_comm (y.length : ℝ)]

/-- C40. Turning all observations and the reference angles by the same angle changes nothing. -/
theorem C40_rotate (x y x' y' : List ℝ) (a1 a2 t : ℝ) (sf : ℝ → ℝ) (hx : x ≠ []) (hy : y ≠ [])
    (h1 : List.Forall₂ (fun a b => SameDir b (a + t)) x x')
    (h2 : List.Forall₂ (fun a b => SameDir b (a + t)) y y') :
    wallraff [plain x', plain y'] [a1 + t, a2 + t] sf = wallraff [plain x, plain y] [a1, a2] sf := by
  have aux : ∀ {z z' : List ℝ} (a : ℝ), List.Forall₂ (fun a b => SameDir b (a + t)) z z' →
      (z'.map fun v => angularDistance v (a + t)) = z.map fun v => angularDistance v a := by
    intro z z' a h
    induction h with
    | nil => rfl
    | @cons u v _ _ huv _ ih =>
      rw [List.map_cons, List.map_cons, ih,
        C04_angularDistance_congr v (u + t) (a + t) (a + t) huv (CongMod.refl _ _)]
      unfold angularDistance
      rw [show u + t - (a + t) = u - a by ring]
  have hx' : x' ≠ [] := by
    rw [← List.length_pos_iff, ← h1.length_eq]; exact List.length_pos_iff.2 hx
  have hy' : y' ≠ [] := by
    rw [← List.length_pos_iff, ← h2.length_eq]; exact List.length_pos_iff.2 hy
  rw [(wallraff_eq hx hy a1 a2 sf).1, (wallraff_eq hx' hy' _ _ sf).1, aux a1 h1, aux a2 h2]

private lemma dist_zero {v d : ℝ} (h : |v| = d) (h4 : d ≤ 3) : IsArcDist d v 0 := by
  have hpi := pi_gt_three
  subst h
  exact isArcDist_of (e := v) (a := v) (b := 0) (by linarith) ⟨0, by simp⟩

/-- Two observations at distance 1 from the reference, one at distance 0. -/
example : ∃ p, wallraff [plain [1, -1], plain [0]] [0] (fun _ => 0) = .ok (0, p) := by
  rw [C40_scalar_angle _ _ _ _ (by simp) (by simp)]
  obtain ⟨U, h, hU, -⟩ := C40_wallraff [1, -1] [0] [1, 1] [0] 0 0 (fun _ => 0) (by simp) (by simp)
    (.cons (dist_zero (by simp) (by norm_num)) (.cons (dist_zero (by simp) (by norm_num)) .nil))
    (.cons (dist_zero (by simp) (by norm_num)) .nil)
  have h0 : U = 0 := by
    rw [hU]
    norm_num [mannWhitney]
  rw [h, h0]
  exact ⟨_, rfl⟩

/-- C40. For weighted samples the claim fails: the ranks are those of the listed angles, not of the
observations they stand for. Three observations at distance 1 against one at 0 and one at 2 have
Mann-Whitney counts 3 and 3, but `U = 0` is returned. -/
theorem C40_weights_ignored (sf : ℝ → ℝ) :
    (∃ p, wallraff [([1], [3]), ([0, 2], [1, 1])] [0] sf = .ok (0, p)) ∧
      IsExpansion [1] [3] [1, 1, 1] ∧ mannWhitney [1, 1, 1] [0, 2] = 3 ∧
      mannWhitney [0, 2] [1, 1, 1] = 3 := by
  have hc1 := coerceSample_nat [1] [3] (by simp) (by simp) (by simp)
  have hc2 := coerceSample_nat [0, 2] [1, 1] (by simp) (by simp) (by simp)
  simp only [List.map_cons, List.map_nil, Nat.cast_ofNat, Nat.cast_one] at hc1 hc2
  have hd : ∀ v : ℝ, 0 ≤ v → v ≤ 3 → angularDistance v 0 = v := fun v h0 h3 =>
    isArcDist_unique (C04_angularDistance_isArcDist v 0) (dist_zero (abs_of_nonneg h0) h3)
  refine ⟨?_, ⟨[3], by simp, .cons (by norm_num) .nil, by simp [expand]⟩, ?_, ?_⟩
  · unfold wallraff coerceSamples
    have hm := mapM_of_ok (f := fun p : List ℝ × List ℝ => coerceSample p.1 p.2)
      (l := [([1], [3]), ([0, 2], [1, 1])]) (.cons hc1 (.cons hc2 .nil))
    rw [if_neg (by simp), hm]
    simp only [Except.bind, List.map_cons, List.map_nil]
    rw [hd 1 (by norm_num) (by norm_num), hd 0 (by norm_num) (by norm_num),
      hd 2 (by norm_num) (by norm_num)]
    have hr : rankAvg ([1] ++ [0, 2]) = [2, 1, 3] := by
      norm_num [rankAvg, List.count_cons]
    simp only [wallraffOf, hr]
    norm_num
  · norm_num [mannWhitney]
  · norm_num [mannWhitney]

/-! ## C31, C89 -/

lemma artExtreme_eq (perms : List (List ℝ)) (n1 : ℕ) (obs : ℝ) :
    artExtreme perms n1 obs
      = (perms.countP fun p => decide (obs ≤ artStatistic (p.take n1) (p.drop n1))) + 1 := by
  have : ∀ c : ℕ, perms.foldl (fun c p => if obs ≤ artStatistic (p.take n1) (p.drop n1) then c + 1 else c) c
      = (perms.countP fun p => decide (obs ≤ artStatistic (p.take n1) (p.drop n1))) + c := by
    induction perms with
    | nil => simp
    | cons p ps ih =>
      intro c
      rw [List.foldl_cons, ih, List.countP_cons]
      by_cases h : obs ≤ artStatistic (p.take n1) (p.drop n1)
      · simp only [h, if_true, decide_true]; omega
      · simp only [h, if_false, decide_false]; simp
  exact this 1

/-- The statistic of the angular randomisation test: `√(nm/(n+m))` times the sum of all arc distances
between an angle of the first and an angle of the second sample. -/
noncomputable def artSpec (d : ℝ → ℝ → ℝ) (x y : List ℝ) : ℝ :=
  sqrt (x.length * y.length / (x.length + y.length)) * (x.map fun a => (y.map fun b => d a b).sum).sum

private lemma geodesic_arc (a b : ℝ) (ha : 0 ≤ a ∧ a < 2 * π) (hb : 0 ≤ b ∧ b < 2 * π) :
    IsArcDist (geodesic a b) a b := by
  obtain ⟨d, hd, h⟩ := C17_geodesic_isArcDist a b (by rw [abs_le]; constructor <;> linarith)
  simp only [circDist] at hd
  rw [if_neg (by decide), if_pos trivial, Except.ok.injEq] at hd
  rw [hd]; exact h

private lemma artStatistic_eq (d : ℝ → ℝ → ℝ) (hd : ∀ a b, IsArcDist (d a b) a b) (x y : List ℝ)
    (hx : ∀ a ∈ x, 0 ≤ a ∧ a < 2 * π) (hy : ∀ a ∈ y, 0 ≤ a ∧ a < 2 * π) :
    artStatistic x y = artSpec d x y := by
  unfold artStatistic artSpec
  simp only
  congr 2
  apply List.map_congr_left
  intro a ha
  congr 1
  apply List.map_congr_left
  intro b hb
  exact isArcDist_unique (geodesic_arc a b (hx a ha) (hy b hb)) (hd a b)

lemma art_plain {x y : List ℝ} (hx : x ≠ []) (hy : y ≠ []) (B : ℤ) (perms : List (List ℝ)) :
    artTest [plain x, plain y] B perms = if B ≤ 0 then .error .valueError
      else .ok (artStatistic x y, (artExtreme perms x.length (artStatistic x y) : ℝ) / (B + 1)) := by
  have hc := coerceSamples_plain (gs := [x, y]) (by simp) (by simp [hx, hy])
  simp only [List.map_cons, List.map_nil] at hc
  unfold artTest
  rw [hc]
  rfl

/-- C31. The p value of the angular randomisation test after `B` permutations of the pooled data is
`k/(B+1)`, where `k - 1` of the permuted data sets have a statistic at least as large as the observed
one; data in `[0, 2π)`, `d` the arc distance. -/
theorem C31_angular_randomisation (d : ℝ → ℝ → ℝ) (hd : ∀ a b, IsArcDist (d a b) a b) (x y : List ℝ)
    (hx : x ≠ []) (hy : y ≠ []) (hr : ∀ a ∈ x ++ y, 0 ≤ a ∧ a < 2 * π) (B : ℤ) (hB : 0 < B)
    (perms : List (List ℝ)) (hlen : (perms.length : ℤ) = B) (hp : ∀ p ∈ perms, p.Perm (x ++ y)) :
    ∃ k : ℕ, artTest [plain x, plain y] B perms = .ok (artSpec d x y, (k : ℝ) / (B + 1)) ∧
      k = (perms.countP fun p =>
        decide (artSpec d x y ≤ artSpec d (p.take x.length) (p.drop x.length))) + 1 ∧
      1 ≤ k ∧ (k : ℤ) ≤ B + 1 := by
  rw [art_plain hx hy, if_neg (by omega), artExtreme_eq,
    artStatistic_eq d hd x y (fun a ha => hr a (by simp [ha])) (fun a ha => hr a (by simp [ha]))]
  refine ⟨_, rfl, ?_, by omega, ?_⟩
  · congr 1
    apply List.countP_congr
    intro p hpm
    rw [artStatistic_eq d hd]
    · intro a ha
      exact hr a ((hp p hpm).mem_iff.1 (List.mem_of_mem_take ha))
    · intro a ha
      exact hr a ((hp p hpm).mem_iff.1 (List.mem_of_mem_drop ha))
  · have : perms.countP (fun p => decide (artSpec d x y ≤ artStatistic (p.take x.length) (p.drop x.length)))
        ≤ perms.length := List.countP_le_length
    push_cast
    omega

/-- C31. Fewer than one permutation is refused. -/
theorem C31_angular_randomisation_refused (x y : List ℝ) (hx : x ≠ []) (hy : y ≠ []) (B : ℤ)
    (hB : B ≤ 0) (perms : List (List ℝ)) : artTest [plain x, plain y] B perms = .error .valueError := by
  rw [art_plain hx hy, if_pos hB]

private lemma artSpec_swap {d : ℝ → ℝ → ℝ} (hd : ∀ a b, d a b = d b a) (x y : List ℝ) :
    artSpec d y x = artSpec d x y := by
  have : ∀ x y : List ℝ, (y.map fun a => (x.map fun b => d a b).sum).sum
      = (x.map fun a => (y.map fun b => d a b).sum).sum := by
    intro x y
    induction y with
    | nil => simp
    | cons b y ih =>
      simp only [List.map_cons, List.sum_cons, ih]
      clear ih
      induction x with
      | nil => simp
      | cons a x ihx =>
        simp only [List.map_cons, List.sum_cons, ← ihx]
        rw [hd a b]; ring
  unfold artSpec
  rw [this, mul_comm (y.length : ℝ), add_comm (y.length : ℝ)]

/-- C89. The observed statistic is not negative, does not depend on which sample comes first, and is
unchanged when all observations are turned by the same angle and wrapped back, in any order. -/
theorem C89_statistic (x y x' y' : List ℝ) (t : ℝ) (hx : x ≠ []) (hy : y ≠ [])
    (hr : ∀ a ∈ x ++ y, 0 ≤ a ∧ a < 2 * π) (hx' : IsRotated t x x') (hy' : IsRotated t y y')
    (B : ℤ) (hB : 0 < B) (perms perms' perms'' : List (List ℝ)) :
    ∃ T p p' p'', artTest [plain x, plain y] B perms = .ok (T, p) ∧
      artTest [plain y, plain x] B perms' = .ok (T, p') ∧
      artTest [plain x', plain y'] B perms'' = .ok (T, p'') ∧ 0 ≤ T := by
  set d := angularDistance
  have hd : ∀ a b, IsArcDist (d a b) a b := C04_angularDistance_isArcDist
  have hrx : ∀ a ∈ x, 0 ≤ a ∧ a < 2 * π := fun a ha => hr a (by simp [ha])
  have hry : ∀ a ∈ y, 0 ≤ a ∧ a < 2 * π := fun a ha => hr a (by simp [ha])
  obtain ⟨z, hz, hpz⟩ := hx'
  obtain ⟨w, hw, hpw⟩ := hy'
  have mem : ∀ {u v : List ℝ}, List.Forall₂ (fun a b => (0 ≤ b ∧ b < 2 * π) ∧ SameDir b (a + t)) u v →
      ∀ b ∈ v, 0 ≤ b ∧ b < 2 * π := by
    intro u v h b hb
    obtain ⟨a, -, hab⟩ := forall₂_exists_right h hb
    exact hab.1
  have hx0 : x' ≠ [] := by
    rw [← List.length_pos_iff, hpz.length_eq, ← hz.length_eq]; exact List.length_pos_iff.2 hx
  have hy0 : y' ≠ [] := by
    rw [← List.length_pos_iff, hpw.length_eq, ← hw.length_eq]; exact List.length_pos_iff.2 hy
  have hrot : artSpec d x' y' = artSpec d x y := by
    have hlx : x'.length = x.length := by rw [hpz.length_eq, hz.length_eq]
    have hly : y'.length = y.length := by rw [hpw.length_eq, hw.length_eq]
    unfold artSpec
    rw [hlx, hly]
    congr 1
    rw [(hpz.map _).sum_eq]
    have h1 : ∀ a, (y'.map fun b => d a b).sum = (w.map fun b => d a b).sum :=
      fun a => (hpw.map _).sum_eq
    simp only [h1]
    have h2 : ∀ a b a' b', SameDir a' (a + t) → SameDir b' (b + t) → d a' b' = d a b := by
      intro a b a' b' ha hb
      show angularDistance a' b' = angularDistance a b
      rw [C04_angularDistance_congr a' (a + t) b' (b + t) ha hb]
      unfold angularDistance
      rw [show a + t - (b + t) = a - b by ring]
    clear hlx hly h1 hpz hpw hr hrx hry hx hy hx0 hy0
    induction hz with
    | nil => rfl
    | cons hab _ ih =>
      rw [List.map_cons, List.map_cons, List.sum_cons, List.sum_cons, ih]
      congr 1
      clear ih
      induction hw with
      | nil => rfl
      | cons hcd _ ih' => rw [List.map_cons, List.map_cons, List.sum_cons, List.sum_cons, ih',
          h2 _ _ _ _ hab.2 hcd.2]
  suffices h : (∃ p, artTest [plain x, plain y] B perms = .ok (artSpec d x y, p)) ∧
      (∃ p, artTest [plain y, plain x] B perms' = .ok (artSpec d x y, p)) ∧
      (∃ p, artTest [plain x', plain y'] B perms'' = .ok (artSpec d x y, p)) ∧ 0 ≤ artSpec d x y by
    obtain ⟨⟨p, h1⟩, ⟨p', h2⟩, ⟨p'', h3⟩, h4⟩ := h
    exact ⟨_, p, p', p'', h1, h2, h3, h4⟩
  refine ⟨?_, ?_, ?_, ?_⟩
  · rw [art_plain hx hy, if_neg (by omega), artStatistic_eq d hd x y hrx hry]
    exact ⟨_, rfl⟩
  · rw [art_plain hy hx, if_neg (by omega), artStatistic_eq d hd y x hry hrx,
      artSpec_swap C04_angularDistance_symm]
    exact ⟨_, rfl⟩
  · rw [art_plain hx0 hy0, if_neg (by omega), artStatistic_eq d hd x' y'
      (fun a ha => mem hz a (hpz.mem_iff.1 ha)) (fun a ha => mem hw a (hpw.mem_iff.1 ha)), hrot]
    exact ⟨_, rfl⟩
  · unfold artSpec
    apply mul_nonneg (sqrt_nonneg _)
    apply List.sum_nonneg
    intro z hz
    obtain ⟨a, -, rfl⟩ := List.mem_map.1 hz
    apply List.sum_nonneg
    intro z hz
    obtain ⟨b, -, rfl⟩ := List.mem_map.1 hz
    exact (C04_angularDistance_range a b).1

/-- One simulated permutation. -/
example : ∃ k : ℕ, artTest [plain [0, 1], plain [2]] 1 [[0, 2, 1]]
    = .ok (artSpec angularDistance [0, 1] [2], (k : ℝ) / ((1 : ℤ) + 1)) ∧ 1 ≤ k := by
  have hpi := pi_gt_three
  obtain ⟨k, h, -, hk, -⟩ := C31_angular_randomisation angularDistance C04_angularDistance_isArcDist
    [0, 1] [2] (by simp) (by simp) (by
      intro a ha
      simp at ha
      rcases ha with rfl | rfl | rfl <;> constructor <;> linarith) 1 (by norm_num) [[0, 2, 1]] (by simp) (by
      intro p hp
      simp at hp
      subst hp
      exact .cons 0 (.swap 1 2 []))
  exact ⟨k, h, hk⟩

end Verif.Props
