import Verif.Lemmas.Mixture
import Verif.Props.Dist
import Verif.Lemmas.Lists

/-! # C64: the silhouette score (`CircHAC.silhouette_score`) -/

set_option autoImplicit false

namespace Verif.Props

open Real Verif Verif.Spec

variable {n : ℕ}

open Classical in
/-- Specification: `a` is the average of `d i` over the observations with label `c`. -/
def IsAverage (d : Fin n → Fin n → ℝ) (labels : Fin n → ℕ) (i : Fin n) (c : ℕ) (a : ℝ) : Prop :=
  a * (Finset.univ.filter fun j => labels j = c).card = ∑ j ∈ Finset.univ.filter (fun j => labels j = c), d i j

/-- Specification: the smallest average distance to another cluster. -/
def IsNearestOther (d : Fin n → Fin n → ℝ) (labels : Fin n → ℕ) (i : Fin n) (b : ℝ) : Prop :=
  (∃ j, labels j ≠ labels i ∧ IsAverage d labels i (labels j) b) ∧
    ∀ j b', labels j ≠ labels i → IsAverage d labels i (labels j) b' → b ≤ b'

private lemma isAverage_meanDistTo (d : Fin n → Fin n → ℝ) (labels : Fin n → ℕ) (i j : Fin n) {a : ℝ} :
    IsAverage d labels i (labels j) a ↔ a = meanDistTo d labels i (labels j) := by
  classical
  have : ((Finset.univ.filter fun k => labels k = labels j).card : ℝ) ≠ 0 := by
    have : 0 < (Finset.univ.filter fun k => labels k = labels j).card :=
      Finset.card_pos.2 ⟨j, by simp⟩
    positivity
  rw [IsAverage, meanDistTo, eq_div_iff this]

private lemma minL_others {d : Fin n → Fin n → ℝ} {labels : Fin n → ℕ} {i : Fin n} {b : ℝ} :
    minL ((((Finset.univ.image labels).erase (labels i)).sort (· ≤ ·)).map (meanDistTo d labels i)) = some b ↔
      IsNearestOther d labels i b := by
  rw [minL_eq_some_iff, IsNearestOther]
  constructor
  · rintro ⟨h1, h2⟩
    constructor
    · obtain ⟨c, hc, rfl⟩ := List.mem_map.1 h1
      simp only [Finset.mem_sort, Finset.mem_erase, Finset.mem_image, Finset.mem_univ, true_and] at hc
      obtain ⟨hc, j, rfl⟩ := hc
      exact ⟨j, hc, (isAverage_meanDistTo d labels i j).2 rfl⟩
    · intro j b' hj hb
      rw [(isAverage_meanDistTo d labels i j).1 hb]
      refine h2 _ (List.mem_map_of_mem ?_)
      simp [hj]
  · rintro ⟨⟨j, hj, hb⟩, h2⟩
    rw [isAverage_meanDistTo] at hb
    constructor
    · rw [hb]
      refine List.mem_map_of_mem ?_
      simp [hj]
    · intro x hx
      obtain ⟨c, hc, rfl⟩ := List.mem_map.1 hx
      simp only [Finset.mem_sort, Finset.mem_erase, Finset.mem_image, Finset.mem_univ, true_and] at hc
      obtain ⟨hc, k, rfl⟩ := hc
      exact h2 k _ hc ((isAverage_meanDistTo d labels i k).2 rfl)

/-- Specification: `s` is the silhouette value computed for observation `i`: `(b - a) / max(a, b)`, `a` being the
average distance within the own cluster *including the observation itself* (zero for a cluster of one). -/
def IsSilhouette (d : Fin n → Fin n → ℝ) (labels : Fin n → ℕ) (i : Fin n) (s : ℝ) : Prop :=
  ∃ a b, IsAverage d labels i (labels i) a ∧ IsNearestOther d labels i b ∧
    s = if 0 < max a b then (b - a) / max a b else 0

/-- The value of each observation, for a distance that vanishes on the diagonal. -/
theorem C64_value {d : Fin n → Fin n → ℝ} (hd : ∀ i, d i i = 0) {labels : Fin n → ℕ} {i : Fin n} {s : ℝ} :
    silhouetteOf d labels i = some s ↔ IsSilhouette d labels i s := by
  classical
  have ha : (if 1 < (Finset.univ.filter fun j => labels j = labels i).card then
      meanDistTo d labels i (labels i) else 0) = meanDistTo d labels i (labels i) := by
    split_ifs with h
    · rfl
    · have h1 : (Finset.univ.filter fun j => labels j = labels i) = {i} := by
        rw [not_lt, Finset.card_le_one] at h
        ext j
        simp only [Finset.mem_filter, Finset.mem_univ, true_and, Finset.mem_singleton]
        exact ⟨fun hj => h j (by simpa using hj) i (by simp), fun hj => by rw [hj]⟩
      rw [meanDistTo, h1]
      simp [hd]
  rw [silhouetteOf]
  simp only [Option.map_eq_some_iff, minL_others]
  rw [ha]
  constructor
  · rintro ⟨b, hb, rfl⟩
    exact ⟨_, b, (isAverage_meanDistTo d labels i i).2 rfl, hb, rfl⟩
  · rintro ⟨a, b, h1, h2, rfl⟩
    rw [isAverage_meanDistTo] at h1
    exact ⟨b, h2, by rw [h1]⟩

private lemma isAverage_nonneg {d : Fin n → Fin n → ℝ} (hd : ∀ i j, 0 ≤ d i j) {labels : Fin n → ℕ} {i j : Fin n}
    {a : ℝ} (h : IsAverage d labels i (labels j) a) : 0 ≤ a := by
  rw [isAverage_meanDistTo] at h
  rw [h, meanDistTo]
  exact div_nonneg (Finset.sum_nonneg fun _ _ => hd _ _) (Nat.cast_nonneg _)

private lemma hacDist_self {metric : String} (x : ℝ) : hacDist metric x x = 0 := by
  rw [hacDist, circDist]
  split_ifs <;> simp [geodesic, abs_of_pos pi_pos]

/-- The score with fewer than two observations is zero. -/
theorem C64_small (metric : String) (alpha : Fin n → ℝ) (labels : Fin n → ℕ) (h : n < 2) :
    silhouetteScore metric alpha labels = some 0 := if_pos h

/-- The score is the average of the silhouette values. -/
theorem C64_score (metric : String) (alpha : Fin n → ℝ) (labels : Fin n → ℕ) (h : 2 ≤ n) {v : ℝ} :
    silhouetteScore metric alpha labels = some v ↔ ∃ s : Fin n → ℝ,
      (∀ i, IsSilhouette (fun i j => |hacDist metric (alpha i) (alpha j)|) labels i (s i)) ∧ v = (∑ i, s i) / n := by
  rw [silhouetteScore, if_neg (by omega)]
  simp only [Option.map_eq_some_iff, allSome_eq]
  have hd : ∀ i, (fun i j => |hacDist metric (alpha i) (alpha j)|) i i = 0 := by simp [hacDist_self]
  constructor
  · rintro ⟨s, hs, rfl⟩
    exact ⟨s, fun i => (C64_value hd).1 (hs i), rfl⟩
  · rintro ⟨s, hs, rfl⟩
    exact ⟨s, fun i => (C64_value hd).2 (hs i), rfl⟩

/-- Every silhouette value lies in `[-1, 1]`. -/
theorem C64_range {d : Fin n → Fin n → ℝ} (hd : ∀ i j, 0 ≤ d i j) {labels : Fin n → ℕ} {i : Fin n} {s : ℝ}
    (h : IsSilhouette d labels i s) : -1 ≤ s ∧ s ≤ 1 := by
  obtain ⟨a, b, ha, ⟨⟨j, hj, hb⟩, -⟩, rfl⟩ := h
  have ha0 := isAverage_nonneg hd ha
  have hb0 := isAverage_nonneg hd hb
  split_ifs with hm
  · rw [le_div_iff₀ hm, div_le_iff₀ hm]
    have h1 := le_max_left a b
    have h2 := le_max_right a b
    constructor <;> linarith
  · constructor <;> norm_num

/-- So does the score. -/
theorem C64_score_range (metric : String) (alpha : Fin n → ℝ) (labels : Fin n → ℕ) {v : ℝ}
    (hv : silhouetteScore metric alpha labels = some v) : -1 ≤ v ∧ v ≤ 1 := by
  rcases lt_or_ge n 2 with h | h
  · rw [C64_small metric alpha labels h] at hv
    rw [← Option.some.inj hv]
    constructor <;> norm_num
  · rw [C64_score metric alpha labels h] at hv
    obtain ⟨s, hs, rfl⟩ := hv
    have hn : (0 : ℝ) < n := by positivity
    have hr := fun i => C64_range (fun _ _ => abs_nonneg _) (hs i)
    rw [le_div_iff₀ hn, div_le_iff₀ hn]
    have h1 : ∑ _i : Fin n, (-1 : ℝ) ≤ ∑ i, s i := Finset.sum_le_sum fun i _ => (hr i).1
    have h2 : ∑ i, s i ≤ ∑ _i : Fin n, (1 : ℝ) := Finset.sum_le_sum fun i _ => (hr i).2
    simp only [Finset.sum_const, Finset.card_univ, Fintype.card_fin, nsmul_eq_mul] at h1 h2
    constructor <;> linarith

/-- With at least two observations the score is defined exactly when there are at least two labels. -/
theorem C64_defined (metric : String) (alpha : Fin n → ℝ) (labels : Fin n → ℕ) (h : 2 ≤ n) :
    silhouetteScore metric alpha labels = none ↔ ∀ i j, labels i = labels j := by
  rw [silhouetteScore, if_neg (by omega)]
  simp only [Option.map_eq_none_iff]
  constructor
  · intro hnone
    by_contra hcon
    push Not at hcon
    obtain ⟨i₀, j₀, hij⟩ := hcon
    have hex : ∀ i, ∃ s, silhouetteOf (fun i j => |hacDist metric (alpha i) (alpha j)|) labels i = some s := by
      intro i
      have hne : ∃ j, labels j ≠ labels i := by
        by_contra hc
        push Not at hc
        exact hij ((hc i₀).trans (hc j₀).symm)
      obtain ⟨j, hj⟩ := hne
      rw [silhouetteOf]
      cases hm : minL ((((Finset.univ.image labels).erase (labels i)).sort (· ≤ ·)).map
          (meanDistTo (fun i j => |hacDist metric (alpha i) (alpha j)|) labels i)) with
      | none =>
        rw [minL_eq_none_iff, List.map_eq_nil_iff] at hm
        have : labels j ∈ ((Finset.univ.image labels).erase (labels i)).sort (· ≤ ·) := by simp [hj]
        rw [hm] at this
        simp at this
      | some b => exact ⟨_, rfl⟩
    choose s hs using hex
    rw [allSome_eq.2 hs] at hnone
    cases hnone
  · intro hall
    rw [Option.eq_none_iff_forall_ne_some]
    intro s hs
    have := (allSome_eq.1 hs) ⟨0, by omega⟩
    rw [C64_value (by simp [hacDist_self])] at this
    obtain ⟨a, b, -, ⟨⟨j, hj, -⟩, -⟩, -⟩ := this
    exact hj (hall _ _)

open Classical in
/-- Specification: the textbook within-cluster average, over the *other* members of the own cluster. -/
def IsOthersAverage (d : Fin n → Fin n → ℝ) (labels : Fin n → ℕ) (i : Fin n) (a : ℝ) : Prop :=
  a * ((Finset.univ.filter fun j => labels j = labels i ∧ j ≠ i).card : ℝ) =
    ∑ j ∈ Finset.univ.filter (fun j => labels j = labels i ∧ j ≠ i), d i j

private lemma sil_antitone {a a' b : ℝ} (h0 : 0 ≤ a) (hb : 0 ≤ b) (h : a ≤ a') :
    (if 0 < max a' b then (b - a') / max a' b else 0) ≤ if 0 < max a b then (b - a) / max a b else 0 := by
  have h1 : 0 < max a' b ∨ (a' = 0 ∧ b = 0 ∧ a = 0) := by
    rcases lt_or_ge 0 (max a' b) with h | h
    · exact Or.inl h
    · rw [max_le_iff] at h
      exact Or.inr ⟨by linarith, by linarith, by linarith⟩
  rcases h1 with h1 | ⟨rfl, rfl, rfl⟩
  · rw [if_pos h1]
    split_ifs with h2
    · rw [div_le_div_iff₀ h1 h2]
      rcases le_total a b with hab | hab
      · rw [max_eq_right hab]
        rcases le_total a' b with hab' | hab'
        · rw [max_eq_right hab']; nlinarith
        · rw [max_eq_left hab']; nlinarith
      · rw [max_eq_left hab, max_eq_left (hab.trans h)]
        nlinarith
    · rw [not_lt, max_le_iff] at h2
      have hb' : b = 0 := by linarith
      subst hb'
      exact div_nonpos_of_nonpos_of_nonneg (by linarith) h1.le
  · simp

/-- Counting the observation itself in its own cluster average makes every value at least the textbook one. -/
theorem C64_inflated {d : Fin n → Fin n → ℝ} (hd : ∀ i j, 0 ≤ d i j) (hd0 : ∀ i, d i i = 0) {labels : Fin n → ℕ}
    {i : Fin n} (hmate : ∃ j, j ≠ i ∧ labels j = labels i) {s a b : ℝ} (hs : IsSilhouette d labels i s)
    (ha : IsOthersAverage d labels i a) (hb : IsNearestOther d labels i b) :
    (if 0 < max a b then (b - a) / max a b else 0) ≤ s := by
  classical
  obtain ⟨a', b', ha', hb', rfl⟩ := hs
  have hbb : b = b' := by
    obtain ⟨⟨j, hj, h1⟩, h2⟩ := hb
    obtain ⟨⟨j', hj', h1'⟩, h2'⟩ := hb'
    exact le_antisymm (h2 _ _ hj' h1') (h2' _ _ hj h1)
  subst hbb
  have hb0 : 0 ≤ b := by
    obtain ⟨⟨j, hj, h1⟩, -⟩ := hb
    exact isAverage_nonneg hd h1
  refine sil_antitone (isAverage_nonneg hd ha') hb0 ?_
  obtain ⟨j, hj, hlj⟩ := hmate
  set T := Finset.univ.filter fun j => labels j = labels i ∧ j ≠ i with hT
  have hins : (Finset.univ.filter fun j => labels j = labels i) = insert i T := by
    ext k
    simp only [hT, Finset.mem_filter, Finset.mem_univ, true_and, Finset.mem_insert]
    by_cases hk : k = i
    · simp [hk]
    · simp [hk]
  have hiT : i ∉ T := by simp [hT]
  rw [IsAverage, hins, Finset.card_insert_of_notMem hiT, Finset.sum_insert hiT, hd0, zero_add] at ha'
  rw [IsOthersAverage] at ha
  have hcard : (0 : ℝ) < T.card := by
    have : 0 < T.card := Finset.card_pos.2 ⟨j, by simp [hT, hj, hlj]⟩
    positivity
  have ha0 : 0 ≤ a' := by
    by_contra hneg
    push Not at hneg
    have h1 : 0 ≤ ∑ j ∈ T, d i j := Finset.sum_nonneg fun _ _ => hd _ _
    push_cast at ha'
    nlinarith
  push_cast at ha'
  rw [← ha] at ha'
  by_contra hcon
  push Not at hcon
  nlinarith

/-- Three angles, two clusters: a score strictly inside the range, above the textbook value for the first angle
(`0.9` against `0.8`). -/
example : IsSilhouette (fun i j : Fin 3 => |![0, 0.4, 2] i - ![0, 0.4, 2] j|) ![0, 0, 1] 0 0.9 ∧
    IsOthersAverage (fun i j : Fin 3 => |![(0 : ℝ), 0.4, 2] i - ![0, 0.4, 2] j|) ![0, 0, 1] 0 0.4 := by
  have e : (![0, 0, 1] : Fin 3 → ℕ) 2 = 1 := rfl
  have r : (![0, 2 / 5, 2] : Fin 3 → ℝ) 2 = 2 := rfl
  refine ⟨⟨0.2, 2, ?_, ⟨⟨2, by simp, ?_⟩, ?_⟩, by norm_num⟩, ?_⟩
  · rw [IsAverage, Finset.card_filter, Finset.sum_filter, Fin.sum_univ_three, Fin.sum_univ_three]
    norm_num [e, r]
  · rw [IsAverage, Finset.card_filter, Finset.sum_filter, Fin.sum_univ_three, Fin.sum_univ_three]
    norm_num [e, r]
  · intro j b' hj hb
    fin_cases j
    · simp at hj
    · simp at hj
    · rw [IsAverage, Finset.card_filter, Finset.sum_filter, Fin.sum_univ_three, Fin.sum_univ_three] at hb
      norm_num [e, r] at hb
      exact hb.ge
  · rw [IsOthersAverage, Finset.card_filter, Finset.sum_filter, Fin.sum_univ_three, Fin.sum_univ_three]
    norm_num [e, r]

end Verif.Props
