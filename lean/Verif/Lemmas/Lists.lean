import Verif.Model.Num

/-! Helper lemmas about the list primitives `minL`, `maxL`, `sortR`, `roundEven`. -/

set_option autoImplicit false

namespace Verif

lemma foldl_min_le (xs : List ℝ) (x : ℝ) : xs.foldl min x ≤ x ∧ ∀ y ∈ xs, xs.foldl min x ≤ y := by
  induction xs generalizing x with
  | nil => simp
  | cons a as ih =>
    simp only [List.foldl_cons, List.mem_cons, forall_eq_or_imp]
    obtain ⟨h1, h2⟩ := ih (min x a)
    exact ⟨h1.trans (min_le_left _ _), h1.trans (min_le_right _ _), h2⟩

lemma foldl_min_mem (xs : List ℝ) (x : ℝ) : xs.foldl min x = x ∨ xs.foldl min x ∈ xs := by
  induction xs generalizing x with
  | nil => simp
  | cons a as ih =>
    simp only [List.foldl_cons, List.mem_cons]
    rcases ih (min x a) with h | h
    · rcases min_choice x a with h' | h' <;> rw [h, h'] <;> simp
    · exact .inr (.inr h)

lemma minL_eq_none_iff {l : List ℝ} : minL l = none ↔ l = [] := by
  cases l <;> simp [minL]

lemma minL_some {l : List ℝ} {m : ℝ} (h : minL l = some m) : m ∈ l ∧ ∀ x ∈ l, m ≤ x := by
  cases l with
  | nil => simp [minL] at h
  | cons x xs =>
    simp only [minL, Option.some.injEq] at h
    subst h
    refine ⟨?_, ?_⟩
    · rcases foldl_min_mem xs x with h | h
      · rw [h]; simp
      · simp [h]
    · intro y hy
      rcases List.mem_cons.1 hy with rfl | hy
      · exact (foldl_min_le xs y).1
      · exact (foldl_min_le xs x).2 y hy

lemma minL_eq_some_iff {l : List ℝ} {m : ℝ} : minL l = some m ↔ m ∈ l ∧ ∀ x ∈ l, m ≤ x := by
  refine ⟨minL_some, fun ⟨h1, h2⟩ => ?_⟩
  cases h : minL l with
  | none => rw [minL_eq_none_iff.1 h] at h1; simp at h1
  | some m' =>
    obtain ⟨h3, h4⟩ := minL_some h
    rw [le_antisymm (h4 m h1) (h2 m' h3)]

lemma minL_exists {l : List ℝ} (h : l ≠ []) : ∃ m, minL l = some m ∧ m ∈ l ∧ ∀ x ∈ l, m ≤ x := by
  cases h' : minL l with
  | none => exact absurd (minL_eq_none_iff.1 h') h
  | some m => exact ⟨m, rfl, minL_some h'⟩

lemma foldl_max_le (xs : List ℝ) (x : ℝ) : x ≤ xs.foldl max x ∧ ∀ y ∈ xs, y ≤ xs.foldl max x := by
  induction xs generalizing x with
  | nil => simp
  | cons a as ih =>
    simp only [List.foldl_cons, List.mem_cons, forall_eq_or_imp]
    obtain ⟨h1, h2⟩ := ih (max x a)
    exact ⟨(le_max_left _ _).trans h1, (le_max_right _ _).trans h1, h2⟩

lemma foldl_max_mem (xs : List ℝ) (x : ℝ) : xs.foldl max x = x ∨ xs.foldl max x ∈ xs := by
  induction xs generalizing x with
  | nil => simp
  | cons a as ih =>
    simp only [List.foldl_cons, List.mem_cons]
    rcases ih (max x a) with h | h
    · rcases max_choice x a with h' | h' <;> rw [h, h'] <;> simp
    · exact .inr (.inr h)

lemma maxL_eq_none_iff {l : List ℝ} : maxL l = none ↔ l = [] := by
  cases l <;> simp [maxL]

lemma maxL_some {l : List ℝ} {m : ℝ} (h : maxL l = some m) : m ∈ l ∧ ∀ x ∈ l, x ≤ m := by
  cases l with
  | nil => simp [maxL] at h
  | cons x xs =>
    simp only [maxL, Option.some.injEq] at h
    subst h
    refine ⟨?_, ?_⟩
    · rcases foldl_max_mem xs x with h | h
      · rw [h]; simp
      · simp [h]
    · intro y hy
      rcases List.mem_cons.1 hy with rfl | hy
      · exact (foldl_max_le xs y).1
      · exact (foldl_max_le xs x).2 y hy

lemma maxL_eq_some_iff {l : List ℝ} {m : ℝ} : maxL l = some m ↔ m ∈ l ∧ ∀ x ∈ l, x ≤ m := by
  refine ⟨maxL_some, fun ⟨h1, h2⟩ => ?_⟩
  cases h : maxL l with
  | none => rw [maxL_eq_none_iff.1 h] at h1; simp at h1
  | some m' =>
    obtain ⟨h3, h4⟩ := maxL_some h
    rw [le_antisymm (h2 m' h3) (h4 m h1)]

lemma maxL_exists {l : List ℝ} (h : l ≠ []) : ∃ m, maxL l = some m ∧ m ∈ l ∧ ∀ x ∈ l, x ≤ m := by
  cases h' : maxL l with
  | none => exact absurd (maxL_eq_none_iff.1 h') h
  | some m => exact ⟨m, rfl, maxL_some h'⟩

lemma sortR_perm (l : List ℝ) : (sortR l).Perm l := List.mergeSort_perm _ _

lemma sortR_sorted (l : List ℝ) : (sortR l).Pairwise (· ≤ ·) := by
  have := List.pairwise_mergeSort (le := fun a b : ℝ => decide (a ≤ b))
    (by simp; intro a b c; exact le_trans) (by simp; exact le_total) l
  simpa [sortR] using this

lemma sortR_length (l : List ℝ) : (sortR l).length = l.length := (sortR_perm l).length_eq

lemma sortR_eq_of_perm {l l' : List ℝ} (h : l.Perm l') : sortR l = sortR l' :=
  List.Perm.eq_of_pairwise (fun _ _ _ _ h1 h2 => le_antisymm h1 h2) (sortR_sorted l) (sortR_sorted l')
    ((sortR_perm l).trans (h.trans (sortR_perm l').symm))

lemma sortR_eq_self {l : List ℝ} (h : l.Pairwise (· ≤ ·)) : sortR l = l :=
  List.Perm.eq_of_pairwise (fun _ _ _ _ h1 h2 => le_antisymm h1 h2) (sortR_sorted l) h (sortR_perm l)

lemma mem_sortR {l : List ℝ} {x : ℝ} : x ∈ sortR l ↔ x ∈ l := (sortR_perm l).mem_iff

lemma roundEven_bound (x : ℝ) : |(roundEven x : ℝ) - x| ≤ 1 / 2 := by
  have h0 := Int.floor_le x
  have h1 := Int.lt_floor_add_one x
  unfold roundEven
  split_ifs <;> push_cast <;> rw [abs_le] <;> constructor <;> linarith

lemma round5_bound (x : ℝ) : |round5 x - x| ≤ 1 / 2 / 10 ^ 5 := by
  have := roundEven_bound (x * 10 ^ 5)
  unfold round5
  rw [show (roundEven (x * 10 ^ 5) : ℝ) / 10 ^ 5 - x = ((roundEven (x * 10 ^ 5) : ℝ) - x * 10 ^ 5) / 10 ^ 5 by
    field_simp]
  rw [abs_div, abs_of_pos (by positivity : (0 : ℝ) < 10 ^ 5)]
  exact div_le_div_of_nonneg_right this (by positivity)

lemma roundEven_of_abs_lt {x : ℝ} {k : ℤ} (h : |x - k| < 1 / 2) : roundEven x = k := by
  have h1 := abs_le.1 (roundEven_bound x)
  have h2 := abs_lt.1 h
  have h3 : ((roundEven x - k : ℤ) : ℝ) < 1 := by push_cast; linarith
  have h4 : (-1 : ℝ) < ((roundEven x - k : ℤ) : ℝ) := by push_cast; linarith
  have h3' : roundEven x - k < 1 := by exact_mod_cast h3
  have h4' : -1 < roundEven x - k := by exact_mod_cast h4
  omega

lemma roundEven_intCast (k : ℤ) : roundEven (k : ℝ) = k := roundEven_of_abs_lt (by simp)

lemma roundEven_nonneg {x : ℝ} (h : 0 ≤ x) : 0 ≤ roundEven x := by
  have := abs_le.1 (roundEven_bound x)
  have h1 : (-1 : ℝ) < (roundEven x : ℝ) := by linarith
  have h2 : -1 < roundEven x := by exact_mod_cast h1
  omega

lemma roundEven_mono {x y : ℝ} (h : x ≤ y) : roundEven x ≤ roundEven y := by
  have hfl : ⌊x⌋ ≤ ⌊y⌋ := Int.floor_mono h
  rcases hfl.eq_or_lt with he | hl
  · unfold roundEven
    rw [he]
    split_ifs <;> first | omega | (exfalso; linarith)
  · have hx : roundEven x ≤ ⌊x⌋ + 1 := by unfold roundEven; split_ifs <;> omega
    have hy : ⌊y⌋ ≤ roundEven y := by unfold roundEven; split_ifs <;> omega
    omega

lemma round5_mono {x y : ℝ} (h : x ≤ y) : round5 x ≤ round5 y := by
  unfold round5
  have : (roundEven (x * 10 ^ 5) : ℝ) ≤ roundEven (y * 10 ^ 5) := by
    exact_mod_cast roundEven_mono (by nlinarith [(by positivity : (0 : ℝ) < 10 ^ 5)])
  exact div_le_div_of_nonneg_right this (by positivity)

lemma round5_nonneg {x : ℝ} (h : 0 ≤ x) : 0 ≤ round5 x := by
  unfold round5
  have : (0 : ℝ) ≤ roundEven (x * 10 ^ 5) := by exact_mod_cast roundEven_nonneg (by positivity)
  positivity

lemma round5_of_grid (k : ℤ) : round5 (k / 10 ^ 5) = k / 10 ^ 5 := by
  unfold round5
  rw [div_mul_cancel₀ _ (by positivity), roundEven_intCast]

lemma round5_eq_zero_of_small {x : ℝ} (h : |round5 x| < 1 / 10 ^ 5) : round5 x = 0 := by
  unfold round5 at *
  rw [abs_div, abs_of_pos (by positivity : (0 : ℝ) < 10 ^ 5), div_lt_div_iff_of_pos_right (by positivity)] at h
  have h' : |roundEven (x * 10 ^ 5)| < 1 := by exact_mod_cast h
  rw [Int.abs_lt_one_iff.1 h']; simp

lemma forall₂_exists_right {α β : Type} {R : α → β → Prop} {l : List α} {r : List β}
    (h : List.Forall₂ R l r) {b : β} (hb : b ∈ r) : ∃ a ∈ l, R a b := by
  induction h with
  | nil => simp at hb
  | cons hab _ ih =>
    rcases List.mem_cons.1 hb with rfl | hb
    · exact ⟨_, by simp, hab⟩
    · obtain ⟨a, ha, h⟩ := ih hb
      exact ⟨a, by simp [ha], h⟩

lemma forall₂_exists_left {α β : Type} {R : α → β → Prop} {l : List α} {r : List β}
    (h : List.Forall₂ R l r) {a : α} (ha : a ∈ l) : ∃ b ∈ r, R a b := by
  induction h with
  | nil => simp at ha
  | cons hab _ ih =>
    rcases List.mem_cons.1 ha with rfl | ha
    · exact ⟨_, by simp, hab⟩
    · obtain ⟨b, hb, h⟩ := ih ha
      exact ⟨b, by simp [hb], h⟩

end Verif
