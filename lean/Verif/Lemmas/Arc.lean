import Verif.Lemmas.Circle
import Verif.Lemmas.Lists

/-! Helper lemmas on arcs, sorted lists of angles and consecutive differences. -/

namespace Verif

open Real Spec

set_option autoImplicit false

lemma onArcFrom_iff (v a L : ℝ) : OnArcFrom v a L ↔ pymod (v - a) (2 * π) ≤ L := by
  constructor
  · rintro ⟨t, h0, h1, k, hk⟩
    have hp := two_pi_pos'
    refine le_trans ?_ h1
    have h2 : pymod (v - a) (2 * π) = pymod t (2 * π) :=
      pymod_congr hp ⟨k, by rw [hk]; ring⟩
    rw [h2]
    unfold pymod
    have : (0 : ℝ) ≤ ⌊t / (2 * π)⌋ := by
      exact_mod_cast Int.floor_nonneg.2 (div_nonneg h0 hp.le)
    nlinarith
  · intro h
    refine ⟨_, pymod_nonneg two_pi_pos' _, h, ?_⟩
    have := (pymod_cong (v - a) (2 * π)).symm.add_left a
    convert this using 1; ring

lemma onArcFrom_congr {v v' a a' : ℝ} (L : ℝ) (hv : SameDir v v') (ha : SameDir a a') :
    OnArcFrom v a L ↔ OnArcFrom v' a' L := by
  rw [onArcFrom_iff, onArcFrom_iff, pymod_congr two_pi_pos' (hv.sub ha)]

lemma countOnArc_eq (a L : ℝ) (l : List ℝ) :
    countOnArc a L l = l.countP fun v => decide (pymod (v - a) (2 * π) ≤ L) := by
  unfold countOnArc
  congr 1
  funext v
  simp [onArcFrom_iff]

lemma countOnArc_perm {a L : ℝ} {l l' : List ℝ} (h : l.Perm l') :
    countOnArc a L l = countOnArc a L l' := h.countP_eq _

lemma countOnArc_angmod (a L : ℝ) (l : List ℝ) :
    countOnArc a L (l.map angmod2pi) = countOnArc a L l := by
  unfold countOnArc
  rw [List.countP_map]
  congr 1
  funext v
  simp [onArcFrom_congr L (angmod2pi_cong v) (CongMod.refl _ a)]

/-- In a sorted list, if at least `k` entries are `≤ c` then so is entry number `k`. -/
lemma sorted_getD_le {R : List ℝ} (hs : R.Pairwise (· ≤ ·)) {k : ℕ} {c : ℝ} (hk : 1 ≤ k)
    (h : k ≤ R.countP fun y => decide (y ≤ c)) (d : ℝ) : R.getD (k - 1) d ≤ c := by
  have hlen : k ≤ R.length := h.trans List.countP_le_length
  have hlt : k - 1 < R.length := by omega
  rw [List.getD_eq_getElem?_getD, List.getElem?_eq_getElem hlt, Option.getD_some]
  by_contra hc
  push Not at hc
  have h1 : R.countP (fun y => decide (y ≤ c)) =
      (R.take (k - 1)).countP (fun y => decide (y ≤ c)) +
      (R.drop (k - 1)).countP (fun y => decide (y ≤ c)) := by
    rw [← List.countP_append, List.take_append_drop]
  have h2 : (R.take (k - 1)).countP (fun y => decide (y ≤ c)) ≤ k - 1 :=
    List.countP_le_length.trans (by simp)
  have h3 : (R.drop (k - 1)).countP (fun y => decide (y ≤ c)) = 0 := by
    rw [List.countP_eq_zero]
    intro y hy
    simp only [decide_eq_true_eq, not_le]
    rw [List.drop_eq_getElem_cons hlt] at hy
    rcases List.mem_cons.1 hy with rfl | hy
    · exact hc
    · have hs' : (R.drop (k - 1)).Pairwise (· ≤ ·) := hs.sublist (List.drop_sublist _ _)
      rw [List.drop_eq_getElem_cons hlt] at hs'
      exact lt_of_lt_of_le hc ((List.pairwise_cons.1 hs').1 y hy)
  omega

/-- A sorted list split at the first entry `≥ x`. -/
lemma sorted_split {S : List ℝ} (hs : S.Pairwise (· ≤ ·)) {x : ℝ} (hx : x ∈ S) :
    ∃ A B : List ℝ, S = A ++ x :: B ∧ (∀ v ∈ A, v < x) ∧ ∀ v ∈ B, x ≤ v := by
  induction S with
  | nil => simp at hx
  | cons y S ih =>
    have hs' := List.pairwise_cons.1 hs
    by_cases hxy : x = y
    · subst hxy
      exact ⟨[], S, rfl, by simp, fun v hv => hs'.1 v hv⟩
    · have hxS : x ∈ S := by
        rcases List.mem_cons.1 hx with h | h
        · exact absurd h hxy
        · exact h
      obtain ⟨A, B, h1, h2, h3⟩ := ih hs'.2 hxS
      refine ⟨y :: A, B, by rw [h1]; rfl, ?_, h3⟩
      intro v hv
      rcases List.mem_cons.1 hv with rfl | hv
      · exact lt_of_le_of_ne (hs'.1 x hxS) (fun h => hxy h.symm)
      · exact h2 v hv

lemma mem_diff {l : List ℝ} {y : ℝ} :
    y ∈ diff l ↔ ∃ A B : List ℝ, ∃ p x : ℝ, l = A ++ p :: x :: B ∧ y = x - p := by
  unfold diff
  induction l with
  | nil => simp
  | cons a l ih =>
    cases l with
    | nil =>
      simp only [List.tail_cons, List.zipWith_nil_right, List.not_mem_nil, false_iff, not_exists,
        not_and]
      intro A B p x h
      have := congrArg List.length h
      simp at this
      omega
    | cons b l =>
      simp only [List.tail_cons, List.zipWith_cons_cons, List.mem_cons] at ih ⊢
      constructor
      · rintro (rfl | h)
        · exact ⟨[], l, a, b, rfl, rfl⟩
        · obtain ⟨A, B, p, x, h1, h2⟩ := ih.1 h
          exact ⟨a :: A, B, p, x, by rw [h1]; rfl, h2⟩
      · rintro ⟨A, B, p, x, h1, h2⟩
        cases A with
        | nil =>
          simp only [List.nil_append, List.cons.injEq] at h1
          obtain ⟨rfl, rfl, rfl⟩ := h1
          left; exact h2
        | cons a' A =>
          simp only [List.cons_append, List.cons.injEq] at h1
          right
          exact ih.2 ⟨A, B, p, x, h1.2, h2⟩

lemma length_diff (l : List ℝ) : (diff l).length = l.length - 1 := by
  simp [diff]

lemma sum_diff (x : ℝ) (l : List ℝ) : (diff (x :: l)).sum = (x :: l).getLast (by simp) - x := by
  induction l generalizing x with
  | nil => simp [diff]
  | cons y l ih =>
    have := ih y
    simp only [diff, List.tail_cons, List.zipWith_cons_cons, List.sum_cons] at this ⊢
    rw [this]
    simp

/-- Offset of a larger lifted angle. -/
lemma pymod_sub_of_le {x v : ℝ} (h0 : x ≤ v) (h1 : v < x + 2 * π) :
    pymod (v - x) (2 * π) = v - x :=
  pymod_eq_self two_pi_pos' (by linarith) (by linarith)

lemma pymod_sub_of_lt {x v : ℝ} (h0 : v < x) (h1 : x ≤ v + 2 * π) :
    pymod (v - x) (2 * π) = v + 2 * π - x :=
  (pymod_eq_iff two_pi_pos').2 ⟨by linarith, by linarith, 1, by push_cast; ring⟩

/-- Moving the start of an arc to the first observation: offsets can only shrink. -/
lemma pymod_offset_le {a x v : ℝ} (h : pymod (x - a) (2 * π) ≤ pymod (v - a) (2 * π)) :
    pymod (v - x) (2 * π) = pymod (v - a) (2 * π) - pymod (x - a) (2 * π) := by
  have hp := two_pi_pos'
  rw [pymod_eq_iff hp]
  refine ⟨by linarith, ?_, ?_⟩
  · have := pymod_lt hp (v - a)
    have := pymod_nonneg hp (x - a)
    linarith
  · have := (pymod_cong (v - a) (2 * π)).sub (pymod_cong (x - a) (2 * π))
    convert this using 1; ring

/-- A list of angles has an entry first met when walking from `a`. -/
lemma exists_first (a : ℝ) {S : List ℝ} (h : S ≠ []) :
    ∃ x ∈ S, ∀ v ∈ S, pymod (x - a) (2 * π) ≤ pymod (v - a) (2 * π) := by
  obtain ⟨m, -, hm, hle⟩ := minL_exists (l := S.map fun v => pymod (v - a) (2 * π)) (by simpa using h)
  obtain ⟨x, hx, rfl⟩ := List.mem_map.1 hm
  exact ⟨x, hx, fun v hv => hle _ (List.mem_map.2 ⟨v, hv, rfl⟩)⟩

end Verif
