import Verif.Model.Range
import Verif.Lemmas.Arc

/-!
# C26: circular range
-/

set_option autoImplicit false

namespace Verif.Props

open Verif Verif.Spec Real

private lemma spacing_upper {S : List ℝ} (hs : S.Pairwise (· ≤ ·))
    (h0 : ∀ v ∈ S, 0 ≤ v ∧ v < 2 * π) {last : ℝ} (hl : S.getLast? = some last) {g : ℝ}
    (hg : g ∈ spacings S last) :
    0 ≤ g ∧ g ≤ 2 * π ∧ ∃ x ∈ S, ∀ v ∈ S, pymod (v - x) (2 * π) ≤ 2 * π - g := by
  have hp := two_pi_pos'
  have hlmem : last ∈ S := List.mem_of_getLast? hl
  have hle : ∀ v ∈ S, v ≤ last := by
    intro v hv
    obtain ⟨l, rfl⟩ := (List.getLast?_eq_some_iff.1 hl)
    rcases List.mem_append.1 hv with h | h
    · exact (List.pairwise_append.1 hs).2.2 v h last (by simp)
    · simp at h; exact h.le
  obtain ⟨A, B, p, x, h1, rfl⟩ := mem_diff.1 hg
  cases A with
  | nil =>
    simp only [List.nil_append, List.cons.injEq] at h1
    obtain ⟨rfl, rfl⟩ := h1
    have hx := h0 x (by simp)
    have hl0 := h0 last hlmem
    have hxl := hle x (by simp)
    refine ⟨by linarith, by linarith, x, by simp, fun v hv => ?_⟩
    have hxv : x ≤ v := by
      rcases List.mem_cons.1 hv with rfl | h
      · exact le_rfl
      · exact (List.pairwise_cons.1 hs).1 v h
    rw [pymod_sub_of_le hxv (by linarith [(h0 v hv).2])]
    linarith [hle v hv]
  | cons a A =>
    simp only [List.cons_append, List.cons.injEq] at h1
    obtain ⟨rfl, rfl⟩ := h1
    have hp0 := h0 p (by simp)
    have hx0 := h0 x (by simp)
    have hs2 := List.pairwise_append.1 hs
    have hpx : p ≤ x := (List.pairwise_cons.1 hs2.2.1).1 x (by simp)
    refine ⟨by linarith, by linarith, x, by simp, fun v hv => ?_⟩
    by_cases hvx : v < x
    · rw [pymod_sub_of_lt hvx (by linarith [(h0 v hv).1])]
      have hvp : v ≤ p := by
        rcases List.mem_append.1 hv with h | h
        · exact hs2.2.2 v h p (by simp)
        · rcases List.mem_cons.1 h with rfl | h
          · exact le_rfl
          · rcases List.mem_cons.1 h with rfl | h
            · exact absurd hvx (lt_irrefl _)
            · have := (List.pairwise_cons.1 (List.pairwise_cons.1 hs2.2.1).2).1 v h
              linarith
      linarith
    · push Not at hvx
      rw [pymod_sub_of_le hvx (by linarith [(h0 v hv).2])]
      linarith [(h0 v hv).2]

private lemma spacing_lower {S : List ℝ} (hs : S.Pairwise (· ≤ ·))
    (h0 : ∀ v ∈ S, 0 ≤ v ∧ v < 2 * π) {last : ℝ} (hl : S.getLast? = some last) {a L : ℝ}
    (hL : ∀ v ∈ S, pymod (v - a) (2 * π) ≤ L) : ∃ g ∈ spacings S last, 2 * π - g ≤ L := by
  have hp := two_pi_pos'
  have hlmem : last ∈ S := List.mem_of_getLast? hl
  have hne : S ≠ [] := by rintro rfl; simp at hlmem
  obtain ⟨x, hx, hmin⟩ := exists_first a hne
  obtain ⟨A, B, rfl, hA, hB⟩ := sorted_split hs hx
  have hL0 : 0 ≤ L := (pymod_nonneg hp _).trans (hL x hx)
  have key : ∀ v ∈ A ++ x :: B, pymod (v - x) (2 * π) ≤ L := fun v hv => by
    rw [pymod_offset_le (hmin v hv)]
    have := pymod_nonneg hp (x - a)
    linarith [hL v hv]
  rcases List.eq_nil_or_concat A with rfl | ⟨A', p, rfl⟩
  · refine ⟨x - (last - 2 * π), mem_diff.2 ⟨[], B, last - 2 * π, x, rfl, rfl⟩, ?_⟩
    have := key last hlmem
    have hxl : x ≤ last := by
      rcases List.mem_cons.1 hlmem with rfl | h
      · exact le_rfl
      · exact hB _ h
    rw [pymod_sub_of_le hxl (by linarith [(h0 last hlmem).2, (h0 x hx).1])] at this
    linarith
  · have hpm : p ∈ A' ++ [p] ++ x :: B := by simp
    refine ⟨x - p, mem_diff.2 ⟨(last - 2 * π) :: A', B, p, x, by simp, rfl⟩, ?_⟩
    have := key p (by simp)
    rw [pymod_sub_of_lt (hA p (by simp)) (by linarith [(h0 p (by simp)).1, (h0 x hx).2])] at this
    linarith

/-- The circular range of a non-empty sample is the length of the shortest arc that contains every
observation. -/
theorem C26_range_shortest (alpha : List ℝ) (hne : alpha ≠ []) :
    ∃ L, circRange alpha = .ok L ∧
      (∃ a, ∀ v ∈ alpha, OnArcFrom v a L) ∧
      ∀ a L', (∀ v ∈ alpha, OnArcFrom v a L') → L ≤ L' := by
  have hp := two_pi_pos'
  set S := sortR (alpha.map fun x => pymod x (2 * π)) with hS
  have hs : S.Pairwise (· ≤ ·) := sortR_sorted _
  have hmem : ∀ {v}, v ∈ S ↔ ∃ y ∈ alpha, pymod y (2 * π) = v := by
    intro v; rw [hS, mem_sortR, List.mem_map]
  have h0 : ∀ v ∈ S, 0 ≤ v ∧ v < 2 * π := by
    intro v hv
    obtain ⟨y, -, rfl⟩ := hmem.1 hv
    exact ⟨pymod_nonneg hp y, pymod_lt hp y⟩
  have hSne : S ≠ [] := by
    intro h
    obtain ⟨y, hy⟩ := List.exists_mem_of_ne_nil _ hne
    have : pymod y (2 * π) ∈ S := hmem.2 ⟨y, hy, rfl⟩
    rw [h] at this; simp at this
  obtain ⟨last, hl⟩ : ∃ last, S.getLast? = some last := by
    rw [List.getLast?_eq_some_getLast hSne]; exact ⟨_, rfl⟩
  have hspne : spacings S last ≠ [] := by
    intro h
    have := congrArg List.length h
    rw [spacings, length_diff] at this
    simp at this
    exact hSne this
  obtain ⟨m, hm, hmm, hmax⟩ := maxL_exists hspne
  refine ⟨2 * π - m, ?_, ?_, ?_⟩
  · unfold circRange
    simp only [← hS, hl, hm]
  · obtain ⟨-, -, x, -, hx⟩ := spacing_upper hs h0 hl hmm
    refine ⟨x, fun v hv => ?_⟩
    rw [onArcFrom_congr _ (pymod_cong v (2 * π)).symm (CongMod.refl _ x), onArcFrom_iff]
    exact hx _ (hmem.2 ⟨v, hv, rfl⟩)
  · intro a L' h
    obtain ⟨g, hg, hgL⟩ := spacing_lower hs h0 hl (a := a) (L := L') (by
      intro v hv
      obtain ⟨y, hy, rfl⟩ := hmem.1 hv
      rw [← onArcFrom_iff, onArcFrom_congr _ (pymod_cong y (2 * π)) (CongMod.refl _ a)]
      exact h y hy)
    linarith [hmax g hg]

/-- The range is between 0 and `2π(1 - 1/n)`. -/
theorem C26_range_bounds (alpha : List ℝ) (L : ℝ) (h : circRange alpha = .ok L) :
    0 ≤ L ∧ L ≤ 2 * π * (1 - 1 / alpha.length) := by
  have hp := two_pi_pos'
  have hne : alpha ≠ [] := by
    rintro rfl
    simp [circRange, sortR] at h
  obtain ⟨L', h1, ⟨a, ha⟩, h2⟩ := C26_range_shortest alpha hne
  rw [h1] at h
  simp only [Except.ok.injEq] at h
  subst h
  constructor
  · obtain ⟨y, hy⟩ := List.exists_mem_of_ne_nil _ hne
    obtain ⟨t, h3, h4, -⟩ := ha y hy
    linarith
  · set S := sortR (alpha.map fun x => pymod x (2 * π)) with hS
    have hlen : S.length = alpha.length := by rw [hS, sortR_length]; simp
    unfold circRange at h1
    simp only [← hS] at h1
    split at h1
    · simp at h1
    · rename_i last hl
      split at h1
      · simp at h1
      · rename_i m hm
        simp only [Except.ok.injEq] at h1
        obtain ⟨hmm, hmax⟩ := maxL_some hm
        have hsum : (spacings S last).sum = 2 * π := by
          unfold spacings
          rw [sum_diff]
          have hSne : S ≠ [] := by rintro hh; rw [hh] at hl; simp at hl
          rw [List.getLast_cons hSne]
          rw [List.getLast?_eq_some_getLast hSne] at hl
          simp only [Option.some.injEq] at hl
          rw [hl]; ring
        have hle : (spacings S last).sum ≤ (spacings S last).length • m :=
          List.sum_le_card_nsmul _ _ hmax
        rw [hsum, spacings, length_diff] at hle
        simp only [List.length_cons, Nat.add_sub_cancel, nsmul_eq_mul, hlen] at hle
        have hn : (0 : ℝ) < alpha.length := by
          exact_mod_cast List.length_pos_iff.2 hne
        rw [← h1]
        have : 2 * π / alpha.length ≤ m := by
          rw [div_le_iff₀ hn]; linarith
        have e : 2 * π * (1 - 1 / (alpha.length : ℝ)) = 2 * π - 2 * π / alpha.length := by ring
        rw [e]; linarith

/-- No observations: the code raises. -/
theorem C26_range_empty : circRange [] = .error .indexError := by
  simp [circRange, sortR]

private lemma range_congr_of {alpha beta : List ℝ} (ha : alpha ≠ []) (hb : beta ≠ [])
    (h : ∀ L, (∃ a, ∀ v ∈ alpha, OnArcFrom v a L) ↔ ∃ a, ∀ v ∈ beta, OnArcFrom v a L) :
    circRange alpha = circRange beta := by
  obtain ⟨L, h1, h2, h3⟩ := C26_range_shortest alpha ha
  obtain ⟨M, g1, g2, g3⟩ := C26_range_shortest beta hb
  rw [h1, g1]
  congr 1
  apply le_antisymm
  · obtain ⟨a, hh⟩ := (h M).2 g2
    exact h3 a M hh
  · obtain ⟨a, hh⟩ := (h L).1 h2
    exact g3 a L hh

/-- Rotation of the whole sample does not change the range. -/
theorem C26_range_rotate (alpha : List ℝ) (t : ℝ) :
    circRange (alpha.map (· + t)) = circRange alpha := by
  by_cases hne : alpha = []
  · subst hne; rfl
  · refine range_congr_of (by simpa using hne) hne fun L => ⟨?_, ?_⟩
    · rintro ⟨a, ha⟩
      refine ⟨a - t, fun v hv => ?_⟩
      have := ha (v + t) (List.mem_map.2 ⟨v, hv, rfl⟩)
      rw [onArcFrom_iff] at this ⊢
      convert this using 2; ring
    · rintro ⟨a, ha⟩
      refine ⟨a + t, fun v hv => ?_⟩
      obtain ⟨y, hy, rfl⟩ := List.mem_map.1 hv
      have := ha y hy
      rw [onArcFrom_iff] at this ⊢
      convert this using 2; ring

/-- Reflection of the whole sample does not change the range. -/
theorem C26_range_reflect (alpha : List ℝ) :
    circRange (alpha.map (fun a => -a)) = circRange alpha := by
  have step : ∀ l : List ℝ, ∀ L, (∃ a, ∀ v ∈ l, OnArcFrom v a L) →
      ∃ a, ∀ v ∈ l.map (fun a => -a), OnArcFrom v a L := by
    rintro l L ⟨a, ha⟩
    refine ⟨-(a + L), fun v hv => ?_⟩
    obtain ⟨y, hy, rfl⟩ := List.mem_map.1 hv
    obtain ⟨t, h0, h1, k, hk⟩ := ha y hy
    exact ⟨L - t, by linarith, by linarith, -k, by rw [hk]; push_cast; ring⟩
  by_cases hne : alpha = []
  · subst hne; rfl
  · refine range_congr_of (by simpa using hne) hne fun L => ⟨fun h => ?_, step alpha L⟩
    have := step _ L h
    simpa [List.map_map, Function.comp_def] using this

/-- The order of the observations and whole turns do not matter. -/
theorem C26_range_perm_congr (alpha beta gamma : List ℝ) (hperm : alpha.Perm beta)
    (hturn : List.Forall₂ SameDir beta gamma) : circRange alpha = circRange gamma := by
  have h1 : circRange alpha = circRange beta := by
    unfold circRange
    rw [sortR_eq_of_perm (hperm.map _)]
  have h2 : (beta.map fun x => pymod x (2 * π)) = gamma.map fun x => pymod x (2 * π) := by
    clear h1 hperm
    induction hturn with
    | nil => rfl
    | cons h _ ih => simp only [List.map_cons, ih, pymod_congr two_pi_pos' h]
  rw [h1]
  unfold circRange
  rw [h2]

/-- Three observations at 0°, 90° and 350°: the range is 100°. -/
example : circRange [0, π / 2, 35 * π / 18] = .ok (5 * π / 9) := by
  have hpi := pi_pos
  obtain ⟨L, h1, ⟨a, ha⟩, h3⟩ := C26_range_shortest [0, π / 2, 35 * π / 18] (by simp)
  have hle := h3 (-(π / 18)) (5 * π / 9) (by
    intro v hv
    simp only [List.mem_cons, List.not_mem_nil, or_false] at hv
    rcases hv with rfl | rfl | rfl
    · exact ⟨π / 18, by linarith, by linarith, 0, by push_cast; ring⟩
    · exact ⟨5 * π / 9, by linarith, by linarith, 0, by push_cast; ring⟩
    · exact ⟨0, by linarith, by linarith, 1, by push_cast; ring⟩)
  rw [h1]
  congr 1
  refine le_antisymm hle ?_
  by_contra hc
  push Not at hc
  obtain ⟨t1, a1, b1, k1, e1⟩ := ha 0 (by simp)
  obtain ⟨t2, a2, b2, k2, e2⟩ := ha (π / 2) (by simp)
  obtain ⟨t3, a3, b3, k3, e3⟩ := ha (35 * π / 18) (by simp)
  have d1 : t2 - t3 = -(13 / 9) * π + 2 * π * ((k3 - k2 : ℤ) : ℝ) := by push_cast; linarith
  have c1 : (0 : ℝ) < ((k3 - k2 : ℤ) : ℝ) := by
    by_contra hh; push Not at hh; nlinarith
  have c2 : ((k3 - k2 : ℤ) : ℝ) < 1 := by
    by_contra hh; push Not at hh; nlinarith
  have c1' : 0 < k3 - k2 := by exact_mod_cast c1
  have c2' : k3 - k2 < 1 := by exact_mod_cast c2
  omega

end Verif.Props
