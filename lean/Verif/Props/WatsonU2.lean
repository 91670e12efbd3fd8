import Verif.Lemmas.Ranks
import Mathlib.Analysis.Real.Pi.Bounds

/-!
# C38: Watson's two-sample test
-/

set_option autoImplicit false

namespace Verif.Props

open Real Verif Verif.Spec

private lemma watson_plain {x y : List ℝ} (hx : x ≠ []) (hy : y ≠ []) :
    watsonU2 [plain x, plain y] = watsonU2Of x y := by
  unfold watsonU2
  have := coerceSamples_plain (gs := [x, y]) (by simp) (by simp [hx, hy])
  simp only [List.map_cons, List.map_nil] at this
  rw [this]
  simp only [Except.bind, plainSample_expand]

private lemma zip_map_sum {α : Type} (l : List α) (f g : α → ℝ) (h : ℝ → ℝ → ℝ) :
    (List.zipWith h (l.map f) (l.map g)) = l.map fun v => h (f v) (g v) := by
  induction l with
  | nil => rfl
  | cons a l ih => simp [ih]

/-- C38. For two samples listed in increasing order, no two different values being too close to tell
apart, the test returns Watson's statistic of the two empirical distribution functions and
`2 exp(-19.74 U²)`. -/
theorem C38_sorted (x y : List ℝ) (hx : x ≠ []) (hy : y ≠ []) (hsx : x.Pairwise (· ≤ ·))
    (hsy : y.Pairwise (· ≤ ·)) (hsep : Separated (1 / 10 ^ 10) (x ++ y)) :
    watsonU2 [plain x, plain y]
      = .ok (watsonStatistic x y, 2 * exp (-19.74 * watsonStatistic x y)) := by
  rw [watson_plain hx hy]
  unfold watsonU2Of
  have hu := uniqueR_sorted (x ++ y)
  have hs := separated_unique hsep
  simp only
  rw [cumfreq_sorted hu hs hsx (fun v hv => mem_uniqueR.2 (by simp [hv])),
    cumfreq_sorted hu hs hsy (fun v hv => mem_uniqueR.2 (by simp [hv]))]
  simp only [Except.bind, Except.map, zip_map_sum]
  rw [sum_unique (x ++ y) (fun v => (ecdf y v - ecdf x v) ^ 2),
    sum_unique (x ++ y) (fun v => ecdf y v - ecdf x v)]
  rfl

/-- C38. For samples with tellable-apart values the call succeeds exactly when both samples are listed
in increasing order; otherwise it raises `ValueError`. -/
theorem C38_unsorted (x y : List ℝ) (hx : x ≠ []) (hy : y ≠ [])
    (hsep : Separated (1 / 10 ^ 10) (x ++ y))
    (h : ¬ (x.Pairwise (· ≤ ·) ∧ y.Pairwise (· ≤ ·))) :
    watsonU2 [plain x, plain y] = .error .valueError := by
  rw [watson_plain hx hy]
  unfold watsonU2Of
  have hu := uniqueR_sorted (x ++ y)
  have hs := separated_unique hsep
  simp only
  by_cases hsx : x.Pairwise (· ≤ ·)
  · have hsy : ¬ y.Pairwise (· ≤ ·) := fun hsy => h ⟨hsx, hsy⟩
    rw [cumfreq_sorted hu hs hsx (fun v hv => mem_uniqueR.2 (by simp [hv])),
      cumfreq_unsorted hu hs hsy (fun v hv => mem_uniqueR.2 (by simp [hv]))]
    rfl
  · rw [cumfreq_unsorted hu hs hsx (fun v hv => mem_uniqueR.2 (by simp [hv]))]
    rfl

/-- C38. So the answer depends on the order in which the observations are listed: `[1, 2]` against
`[3]` is accepted, `[2, 1]` against `[3]` is refused. -/
theorem C38_order_matters :
    (∃ r, watsonU2 [plain [1, 2], plain [3]] = .ok r) ∧
      watsonU2 [plain [2, 1], plain [3]] = .error .valueError := by
  have hs1 : Separated (1 / 10 ^ 10) ([1, 2] ++ [3]) := by
    intro a ha b hb hab
    simp at ha hb
    rcases ha with rfl | rfl | rfl <;> rcases hb with rfl | rfl | rfl
    all_goals first | exact absurd rfl hab | norm_num [abs_of_pos, abs_of_neg]
  have hs2 : Separated (1 / 10 ^ 10) ([2, 1] ++ [3]) := by
    intro a ha b hb hab
    exact hs1 a (by simp at ha ⊢; tauto) b (by simp at hb ⊢; tauto) hab
  refine ⟨⟨_, C38_sorted _ _ (by simp) (by simp) (by simp) (by simp) hs1⟩, ?_⟩
  exact C38_unsorted _ _ (by simp) (by simp) hs2 (by simp)

private lemma countLe_perm {x y : List ℝ} (h : x.Perm y) (v : ℝ) : countLe x v = countLe y v :=
  h.countP_eq _

private lemma ecdf_perm {x y : List ℝ} (h : x.Perm y) (v : ℝ) : ecdf x v = ecdf y v := by
  unfold ecdf; rw [countLe_perm h, h.length_eq]

private lemma statistic_perm {x y x' y' : List ℝ} (hx : x.Perm x') (hy : y.Perm y') :
    watsonStatistic x y = watsonStatistic x' y' := by
  unfold watsonStatistic
  simp only [ecdf_perm hx, ecdf_perm hy, hx.length_eq, hy.length_eq]
  rw [((hx.append hy).map _).sum_eq, ((hx.append hy).map _).sum_eq]

private lemma statistic_swap (x y : List ℝ) : watsonStatistic x y = watsonStatistic y x := by
  unfold watsonStatistic
  simp only
  have hp : (x ++ y).Perm (y ++ x) := List.perm_append_comm
  have h1 : ((x ++ y).map fun v => (ecdf y v - ecdf x v) ^ 2).sum
      = ((y ++ x).map fun v => (ecdf x v - ecdf y v) ^ 2).sum := by
    rw [(hp.map _).sum_eq]
    congr 1
    apply List.map_congr_left
    intro v _; ring
  have h2 : ((x ++ y).map fun v => ecdf y v - ecdf x v).sum
      = - ((y ++ x).map fun v => ecdf x v - ecdf y v).sum := by
    rw [(hp.map _).sum_eq]
    generalize y ++ x = l
    induction l with
    | nil => simp
    | cons a l ih => simp only [List.map_cons, List.sum_cons, ih]; ring
  rw [h1, h2, neg_sq, add_comm (y.length : ℝ), mul_comm (y.length : ℝ)]

/-- C38. Swapping the samples changes nothing. -/
theorem C38_swap (x y : List ℝ) (hx : x ≠ []) (hy : y ≠ [])
    (hsep : Separated (1 / 10 ^ 10) (x ++ y)) :
    watsonU2 [plain y, plain x] = watsonU2 [plain x, plain y] := by
  have hsep' : Separated (1 / 10 ^ 10) (y ++ x) := by
    intro a ha b hb
    exact hsep a (by simp at ha ⊢; tauto) b (by simp at hb ⊢; tauto)
  by_cases h : x.Pairwise (· ≤ ·) ∧ y.Pairwise (· ≤ ·)
  · rw [C38_sorted x y hx hy h.1 h.2 hsep, C38_sorted y x hy hx h.2 h.1 hsep', statistic_swap]
  · rw [C38_unsorted x y hx hy hsep h, C38_unsorted y x hy hx hsep' (fun h' => h ⟨h'.2, h'.1⟩)]

private lemma sum_sq_ge (l : List ℝ) : l.sum ^ 2 ≤ l.length * (l.map (· ^ 2)).sum := by
  have h : ∀ c : ℝ, 0 ≤ (l.map fun d => (d - c) ^ 2).sum := by
    intro c
    apply List.sum_nonneg
    intro a ha
    obtain ⟨d, -, rfl⟩ := List.mem_map.1 ha
    positivity
  have h2 : ∀ c : ℝ, (l.map fun d => (d - c) ^ 2).sum
      = (l.map (· ^ 2)).sum - 2 * c * l.sum + l.length * c ^ 2 := by
    intro c
    clear h
    induction l with
    | nil => simp
    | cons a l ih => simp only [List.map_cons, List.sum_cons, ih, List.length_cons]; push_cast; ring
  rcases Nat.eq_zero_or_pos l.length with h0 | h0
  · rw [List.length_eq_zero_iff] at h0; simp [h0]
  · have hpos : (0 : ℝ) < l.length := by exact_mod_cast h0
    have := h (l.sum / l.length)
    rw [h2] at this
    have h3 : (l.map (· ^ 2)).sum - 2 * (l.sum / l.length) * l.sum + l.length * (l.sum / l.length) ^ 2
        = ((l.length : ℝ) * (l.map (· ^ 2)).sum - l.sum ^ 2) / l.length := by
      field_simp; ring
    rw [h3] at this
    have := mul_nonneg this hpos.le
    rw [div_mul_cancel₀ _ hpos.ne'] at this
    linarith

private lemma statistic_nonneg (x y : List ℝ) : 0 ≤ watsonStatistic x y := by
  unfold watsonStatistic
  simp only
  apply mul_nonneg (by positivity)
  have := sum_sq_ge ((x ++ y).map fun v => ecdf y v - ecdf x v)
  rw [List.length_map, List.length_append, List.map_map] at this
  push_cast at this
  rcases Nat.eq_zero_or_pos (x.length + y.length) with h0 | h0
  · have h1 : x = [] := List.length_eq_zero_iff.1 (by omega)
    have h2 : y = [] := List.length_eq_zero_iff.1 (by omega)
    simp [h1, h2]
  · have hpos : (0 : ℝ) < x.length + y.length := by exact_mod_cast h0
    rw [sub_nonneg, div_le_iff₀ hpos, mul_comm]
    exact this

/-- C38. Whenever the test returns, `U² ≥ 0` and the reported p value is in `(0, 2]`. -/
theorem C38_range (x y : List ℝ) (hx : x ≠ []) (hy : y ≠ []) (hsep : Separated (1 / 10 ^ 10) (x ++ y))
    (U p : ℝ) (h : watsonU2 [plain x, plain y] = .ok (U, p)) : 0 ≤ U ∧ 0 < p ∧ p ≤ 2 := by
  by_cases hs : x.Pairwise (· ≤ ·) ∧ y.Pairwise (· ≤ ·)
  · rw [C38_sorted x y hx hy hs.1 hs.2 hsep] at h
    simp only [Except.ok.injEq, Prod.mk.injEq] at h
    obtain ⟨rfl, rfl⟩ := h
    have := statistic_nonneg x y
    refine ⟨this, by positivity, ?_⟩
    have : exp (-19.74 * watsonStatistic x y) ≤ 1 := by
      rw [exp_le_one_iff]; nlinarith
    linarith
  · rw [C38_unsorted x y hx hy hsep hs] at h; cases h

/-- C38. The "p value" is 2 when a sample is compared with itself. -/
theorem C38_pvalue_two (x : List ℝ) (hx : x ≠ []) (hsx : x.Pairwise (· ≤ ·))
    (hsep : Separated (1 / 10 ^ 10) x) : watsonU2 [plain x, plain x] = .ok (0, 2) := by
  have h0 : watsonStatistic x x = 0 := by unfold watsonStatistic; simp
  rw [C38_sorted x x hx hx hsx hsx, h0]
  · simp
  · intro a ha b hb
    exact hsep a (by simpa using ha) b (by simpa using hb)

private lemma var_shift (l : List ℝ) (f g : ℝ → ℝ) (D N : ℝ) (hN : N = l.length) (h0 : N ≠ 0)
    (h : ∀ v ∈ l, g v = f v - D) :
    (l.map fun v => g v ^ 2).sum - (l.map g).sum ^ 2 / N
      = (l.map fun v => f v ^ 2).sum - (l.map f).sum ^ 2 / N := by
  have h1 : (l.map g).sum = (l.map f).sum - l.length * D := by
    clear hN
    induction l with
    | nil => simp
    | cons a l ih =>
      simp only [List.map_cons, List.sum_cons, List.length_cons]
      rw [ih (fun v hv => h v (by simp [hv])), h a (by simp)]; push_cast; ring
  have h2 : (l.map fun v => g v ^ 2).sum
      = (l.map fun v => f v ^ 2).sum - 2 * D * (l.map f).sum + l.length * D ^ 2 := by
    clear hN h1
    induction l with
    | nil => simp
    | cons a l ih =>
      simp only [List.map_cons, List.sum_cons, List.length_cons]
      rw [ih (fun v hv => h v (by simp [hv])), h a (by simp)]; push_cast; ring
  rw [h1, h2, ← hN]
  field_simp
  ring

private lemma statistic_rot (x y : List ℝ) (t : ℝ) (hx0 : x ≠ []) (hy0 : y ≠ [])
    (hx : ∀ a ∈ x, 0 ≤ a ∧ a < 2 * π)
    (hy : ∀ a ∈ y, 0 ≤ a ∧ a < 2 * π) (ht : 0 ≤ t ∧ t < 2 * π) :
    watsonStatistic (x.map (rot t)) (y.map (rot t)) = watsonStatistic x y := by
  have hxl : (0 : ℝ) < x.length := by exact_mod_cast List.length_pos_iff.2 hx0
  have hyl : (0 : ℝ) < y.length := by exact_mod_cast List.length_pos_iff.2 hy0
  unfold watsonStatistic
  simp only [List.length_map]
  rw [← List.map_append, List.map_map, List.map_map]
  congr 1
  refine var_shift (x ++ y) (fun v => ecdf y v - ecdf x v) _
    ((y.countP fun a => decide (a < 2 * π - t)) / (y.length : ℝ)
      - (x.countP fun a => decide (a < 2 * π - t)) / (x.length : ℝ)) _ (by simp) (by positivity) ?_
  intro v hv
  have hv' : 0 ≤ v ∧ v < 2 * π := by
    rcases List.mem_append.1 hv with h | h
    · exact hx v h
    · exact hy v h
  simp only [Function.comp, ecdf, List.length_map]
  rw [countLe_rot x t v hx hv' ht, countLe_rot y t v hy hv' ht]
  split_ifs <;> field_simp <;> ring

/-- C38. The result is invariant under rotation: `x`, `y` are in `[0, 2π)` and `x'`, `y'` are the samples
obtained by turning every observation by `t`, wrapping back into `[0, 2π)` and sorting. -/
theorem C38_rotate (x y x' y' : List ℝ) (t : ℝ) (hx : x ≠ []) (hy : y ≠ [])
    (hxr : ∀ a ∈ x, 0 ≤ a ∧ a < 2 * π) (hyr : ∀ a ∈ y, 0 ≤ a ∧ a < 2 * π)
    (hx' : IsRotated t x x') (hy' : IsRotated t y y')
    (hs : x.Pairwise (· ≤ ·) ∧ y.Pairwise (· ≤ ·)) (hs' : x'.Pairwise (· ≤ ·) ∧ y'.Pairwise (· ≤ ·))
    (hsep : Separated (1 / 10 ^ 10) (x ++ y)) (hsep' : Separated (1 / 10 ^ 10) (x' ++ y')) :
    watsonU2 [plain x', plain y'] = watsonU2 [plain x, plain y] := by
  obtain ⟨hsm, hrx⟩ := isRotated_rot hx' hxr
  obtain ⟨-, hry⟩ := isRotated_rot hy' hyr
  have hxn : x' ≠ [] := by
    intro h; rw [h] at hrx; simp at hrx; exact hx hrx
  have hyn : y' ≠ [] := by
    intro h; rw [h] at hry; simp at hry; exact hy hry
  rw [C38_sorted x y hx hy hs.1 hs.2 hsep, C38_sorted x' y' hxn hyn hs'.1 hs'.2 hsep',
    statistic_perm hrx hry, statistic_rot x y _ hx hy hxr hyr hsm]

/-- Samples that satisfy the hypotheses of `C38_rotate`: a quarter turn. -/
example : watsonU2 [plain [π / 2, π], plain [0]] = watsonU2 [plain [0, π / 2], plain [3 * π / 2]] := by
  have hpi := pi_gt_three
  have hpi4 := pi_le_four
  have hsep : ∀ l : List ℝ, (∀ a ∈ l, a = 0 ∨ a = π / 2 ∨ a = π ∨ a = 3 * π / 2) →
      Separated (1 / 10 ^ 10) l := by
    intro l hl a ha b hb hab
    have h1 : 1 ≤ |a - b| := by
      rw [le_abs]
      rcases hl a ha with rfl | rfl | rfl | rfl <;> rcases hl b hb with rfl | rfl | rfl | rfl <;>
        first
          | exact absurd rfl hab
          | (left; linarith)
          | (right; linarith)
    have h2 : |b| ≤ 6 := by
      rw [abs_le]
      rcases hl b hb with rfl | rfl | rfl | rfl <;> constructor <;> linarith
    norm_num
    linarith
  refine C38_rotate [0, π / 2] [3 * π / 2] _ _ (π / 2) (by simp) (by simp) ?_ ?_ ?_ ?_ ?_ ?_
    (hsep _ (by simp)) (hsep _ (by simp))
  · intro a ha
    simp at ha
    rcases ha with rfl | rfl <;> constructor <;> linarith
  · intro a ha
    simp at ha
    subst ha
    constructor <;> linarith
  · refine ⟨[π / 2, π], .cons ⟨⟨by linarith, by linarith⟩, ⟨0, by push_cast; ring⟩⟩
      (.cons ⟨⟨by linarith, by linarith⟩, ⟨0, by push_cast; ring⟩⟩ .nil), .refl _⟩
  · exact ⟨[0], .cons ⟨⟨by linarith, by linarith⟩, ⟨-1, by push_cast; ring⟩⟩ .nil, .refl _⟩
  · simp; linarith
  · simp; linarith

end Verif.Props
