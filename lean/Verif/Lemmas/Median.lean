import Verif.Model.Median
import Verif.Lemmas.Lists
import Verif.Lemmas.Dist

/-! Helper lemmas for the medians. -/

set_option autoImplicit false

namespace Verif

open Real Spec

open Classical in
lemma tiedMinima_eq (alpha : List ℝ) (D : ℝ → ℝ) (hne : alpha ≠ []) :
    tiedMinima alpha (alpha.map D) = .ok
      (if ∀ b ∈ alpha, ∀ b' ∈ alpha, D b ≤ D b' then none
        else some (alpha.filter fun b => decide (∀ b' ∈ alpha, D b ≤ D b'))) := by
  obtain ⟨m, hm, hmem, hle⟩ := minL_exists (l := alpha.map D) (by simpa using hne)
  unfold tiedMinima
  rw [hm]
  simp only
  have hz : alpha.zip (alpha.map D) = alpha.map fun a => (a, D a) := by
    induction alpha with
    | nil => rfl
    | cons a as ih =>
      rw [List.map_cons, List.zip_cons_cons, List.map_cons]
      congr 1
      clear ih hm hmem hle hne
      induction as with
      | nil => rfl
      | cons b bs ih => simp only [List.map_cons, List.zip_cons_cons, ih]
  have hD : ∀ b ∈ alpha, (D b = m ↔ ∀ b' ∈ alpha, D b ≤ D b') := by
    intro b hb
    constructor
    · rintro rfl b' hb'
      exact hle _ (List.mem_map_of_mem hb')
    · intro h
      obtain ⟨c, hc, rfl⟩ := List.mem_map.1 hmem
      exact le_antisymm (h c hc) (hle _ (List.mem_map_of_mem hb))
  have hc : (((alpha.zip (alpha.map D)).filter fun x => decide (x.2 = m)).map Prod.fst)
      = alpha.filter fun b => decide (∀ b' ∈ alpha, D b ≤ D b') := by
    rw [hz, List.filter_map, List.map_map]
    have : (Prod.fst ∘ fun a => (a, D a)) = id := rfl
    rw [this, List.map_id]
    apply List.filter_congr
    intro b hb
    simp only [Function.comp, decide_eq_decide]
    exact hD b hb
  rw [hc]
  by_cases hall : ∀ b ∈ alpha, ∀ b' ∈ alpha, D b ≤ D b'
  · rw [if_pos hall, if_pos]
    rw [List.length_filter_eq_length_iff]
    intro b hb
    exact decide_eq_true (hall b hb)
  · rw [if_neg hall, if_neg]
    rw [List.length_filter_eq_length_iff]
    intro h
    exact hall fun b hb => of_decide_eq_true (h b hb)

/-- The rounded mean deviation of the sample from `b`. -/
noncomputable def devScore (alpha : List ℝ) (b : ℝ) : ℝ :=
  round5 ((alpha.map fun a => geodesic a b).sum / alpha.length)

lemma sum_geodesic (alpha : List ℝ) (b : ℝ) : (alpha.map fun a => geodesic a b).sum
    = alpha.length * π - (alpha.map fun a => |π - (|a - b|)|).sum := by
  induction alpha with
  | nil => simp
  | cons a as ih =>
    simp only [List.map_cons, List.sum_cons, ih, List.length_cons]
    rw [geodesic]
    push_cast; ring

lemma meanDeviation_eq (alpha beta : List ℝ) (hne : alpha ≠ []) :
    circMeanDeviation alpha beta = beta.map fun b => some (devScore alpha b) := by
  unfold circMeanDeviation
  apply List.map_congr_left
  intro b _
  have h : (alpha.length : ℝ) ≠ 0 := by exact_mod_cast (List.length_pos_of_ne_nil hne).ne'
  unfold mean pydiv devScore
  simp only [List.length_map]
  rw [if_neg h]
  show some (round5 _) = some (round5 _)
  congr 2
  rw [sum_geodesic]; field_simp

lemma mapM_id_some {α : Type} (l : List α) : (l.map some).mapM id = some l := by
  induction l with
  | nil => rfl
  | cons a as ih => rw [List.map_cons, List.mapM_cons, ih]; rfl

lemma arcDist_min {v a b : ℝ} (h0 : 0 ≤ v) (h1 : v ≤ 2 * π) (h : SameDir v (a - b)) :
    IsArcDist (min v (2 * π - v)) a b := by
  have hpi := pi_pos
  rcases le_total v π with hv | hv
  · rw [min_eq_left (by linarith)]
    have := isArcDist_of (e := v) (by rw [abs_of_nonneg h0]; exact hv) h
    rwa [abs_of_nonneg h0] at this
  · rw [min_eq_right (by linarith)]
    have h2 : SameDir (v - 2 * π) (a - b) := by
      obtain ⟨k, hk⟩ := h
      exact ⟨k - 1, by push_cast; linarith⟩
    have := isArcDist_of (e := v - 2 * π) (by rw [abs_of_nonpos (by linarith)]; linarith) h2
    rw [abs_of_nonpos (by linarith)] at this
    rwa [neg_sub] at this

/-- Some observation has a total arc-length deviation no larger than that of any given angle. -/
lemma exists_data_le (alpha : List ℝ) (hne : alpha ≠ []) (d : ℝ → ℝ → ℝ)
    (hd : ∀ a b, IsArcDist (d a b) a b) (θ : ℝ) :
    ∃ b ∈ alpha, (alpha.map fun a => d a b).sum ≤ (alpha.map fun a => d a θ).sum := by
  set u : ℝ → ℝ := fun a => angmod2pi (a - θ) with hu
  have hu0 : ∀ a, 0 ≤ u a := fun a => angmod2pi_nonneg _
  have hu1 : ∀ a, u a < 2 * π := fun a => angmod2pi_lt _
  have hus : ∀ a, SameDir (u a) (a - θ) := fun a => angmod2pi_cong _
  obtain ⟨R, _, hR, hRle⟩ := minL_exists (l := alpha.map u) (by simpa using hne)
  obtain ⟨M, _, hM, hMle⟩ := maxL_exists (l := alpha.map u) (by simpa using hne)
  obtain ⟨aR, haR, rfl⟩ := List.mem_map.1 hR
  obtain ⟨aL, haL, rfl⟩ := List.mem_map.1 hM
  rcases (hu0 aR).eq_or_lt with h0 | h0
  · refine ⟨aR, haR, le_of_eq ?_⟩
    have hsd : SameDir aR θ := by
      have h := hus aR
      rw [← h0] at h
      obtain ⟨k, hk⟩ := h
      exact ⟨-k, by push_cast; linarith⟩
    congr 1
    apply List.map_congr_left
    intro a _
    exact isArcDist_unique (hd a aR) ((isArcDist_congr (CongMod.refl _ _) hsd.symm).1 (hd a θ))
  · set Rv := u aR with hRv
    set L := 2 * π - u aL with hLdef
    have hL : 0 < L := by linarith [hu1 aL]
    have dθ : ∀ a, d a θ = min (u a) (2 * π - u a) := fun a =>
      isArcDist_unique (hd a θ) (arcDist_min (hu0 a) (hu1 a).le (hus a))
    have dR : ∀ a ∈ alpha, d a aR = min (u a - Rv) (2 * π - (u a - Rv)) := by
      intro a ha
      refine isArcDist_unique (hd a aR) (arcDist_min ?_ ?_ ?_)
      · linarith [hRle _ (List.mem_map_of_mem ha)]
      · linarith [hu1 a]
      · have := (hus a).sub (hus aR)
        convert this using 1; ring
    have dL : ∀ a ∈ alpha, d a aL = min (u a + L) (2 * π - (u a + L)) := by
      intro a ha
      refine isArcDist_unique (hd a aL) (arcDist_min ?_ ?_ ?_)
      · linarith [hu0 a]
      · linarith [hMle _ (List.mem_map_of_mem ha)]
      · have := ((hus a).sub (hus aL)).trans (CongMod.refl _ _)
        obtain ⟨k, hk⟩ := this
        exact ⟨k + 1, by push_cast; linarith⟩
    have hpt : ∀ a ∈ alpha, L * d a aR + Rv * d a aL ≤ (L + Rv) * d a θ := by
      intro a ha
      rw [dR a ha, dL a ha, dθ a]
      rcases min_choice (u a) (2 * π - u a) with h | h <;> rw [h]
      · have h1 := mul_le_mul_of_nonneg_left (min_le_left (u a - Rv) (2 * π - (u a - Rv))) hL.le
        have h2 := mul_le_mul_of_nonneg_left (min_le_left (u a + L) (2 * π - (u a + L))) h0.le
        nlinarith
      · have h1 := mul_le_mul_of_nonneg_left (min_le_right (u a - Rv) (2 * π - (u a - Rv))) hL.le
        have h2 := mul_le_mul_of_nonneg_left (min_le_right (u a + L) (2 * π - (u a + L))) h0.le
        nlinarith
    have hsum : L * (alpha.map fun a => d a aR).sum + Rv * (alpha.map fun a => d a aL).sum
        ≤ (L + Rv) * (alpha.map fun a => d a θ).sum := by
      rw [← List.sum_map_mul_left, ← List.sum_map_mul_left, ← List.sum_map_mul_left,
        ← List.sum_map_add]
      exact List.sum_le_sum hpt
    by_contra hcon
    push Not at hcon
    have h1 := hcon aR haR
    have h2 := hcon aL haL
    nlinarith

end Verif
