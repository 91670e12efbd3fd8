import Verif.Model.DistTable
import Verif.Lemmas.Pchip
import Verif.Lemmas.Distn

/-! # Tabulated distribution functions -/

set_option autoImplicit false

namespace Verif

open Real

theorem tabGrid_zero (N : ℕ) : tabGrid N 0 = -π := by unfold tabGrid; simp
theorem tabGrid_last {N : ℕ} (hN : 0 < N) : tabGrid N N = π := by
  have : (N : ℝ) ≠ 0 := by positivity
  unfold tabGrid
  field_simp
  ring
theorem tabGrid_step (N j : ℕ) : tabGrid N (j + 1) - tabGrid N j = 2 * π / N := by
  unfold tabGrid; push_cast; ring
theorem tabGrid_increasing {N : ℕ} (hN : 0 < N) : Increasing N (tabGrid N) := fun i _ => by
  have := tabGrid_step N i
  have : 0 < 2 * π / N := by positivity
  linarith

theorem runMax_mono (c : ℕ → ℝ) (k : ℕ) : runMax c k ≤ runMax c (k + 1) := le_max_left _ _
theorem runMax_ge (c : ℕ → ℝ) (k : ℕ) : c k ≤ runMax c k := by cases k with
  | zero => exact le_refl _
  | succ k => exact le_max_right _ _
theorem runMax_le {c : ℕ → ℝ} {M : ℝ} (h : ∀ i, c i ≤ M) (k : ℕ) : runMax c k ≤ M := by
  induction k with
  | zero => exact h 0
  | succ k ih => exact max_le ih (h _)
theorem runMax_eq {c : ℕ → ℝ} {k : ℕ} (h : ∀ i, i < k → c i ≤ c (i + 1)) : runMax c k = c k := by
  induction k with
  | zero => rfl
  | succ k ih =>
    have := ih fun i hi => h i (by omega)
    unfold runMax
    rw [this]
    exact max_eq_right (h k (by omega))

private lemma clip_mem (x : ℝ) : 0 ≤ clip x 0 1 ∧ clip x 0 1 ≤ 1 := by
  unfold clip
  exact ⟨le_min (le_max_right _ _) (by norm_num), min_le_right _ _⟩
private lemma clip_id {x : ℝ} (h0 : 0 ≤ x) (h1 : x ≤ 1) : clip x 0 1 = x := by
  unfold clip
  rw [max_eq_left h0, min_eq_left h1]

theorem tabTrap_zero (N : ℕ) (f : ℕ → ℝ) : tabTrap N f 0 = 0 := by simp [tabTrap]
theorem tabTrap_succ (N : ℕ) (f : ℕ → ℝ) (k : ℕ) :
    tabTrap N f (k + 1) = tabTrap N f k + 1 / 2 * (f k + f (k + 1)) * (2 * π / N) := by
  unfold tabTrap
  rw [Finset.sum_range_succ]
  ring

theorem tabCumul_zero {N : ℕ} (hN : 0 < N) (f : ℕ → ℝ) : tabCumul N f 0 = 0 := by
  unfold tabCumul
  rw [if_neg (by omega)]
  show clip (tabTrap N f 0) 0 1 = 0
  rw [tabTrap_zero, clip_id (le_refl _) (by norm_num)]
theorem tabCumul_last (N : ℕ) (f : ℕ → ℝ) : tabCumul N f N = 1 := by simp [tabCumul]
theorem tabCumul_mem (N : ℕ) (f : ℕ → ℝ) (k : ℕ) : 0 ≤ tabCumul N f k ∧ tabCumul N f k ≤ 1 := by
  unfold tabCumul
  split_ifs
  · norm_num
  · exact ⟨(clip_mem _).1.trans (runMax_ge (fun i => clip (tabTrap N f i) 0 1) k), runMax_le (fun i => (clip_mem _).2) k⟩
theorem tabCumul_mono (N : ℕ) (f : ℕ → ℝ) {k : ℕ} (hk : k < N) : tabCumul N f k ≤ tabCumul N f (k + 1) := by
  rcases Nat.eq_or_lt_of_le (Nat.succ_le_of_lt hk) with h | h
  · rw [show k + 1 = N from h, tabCumul_last]
    exact (tabCumul_mem N f k).2
  · unfold tabCumul
    rw [if_neg (by omega), if_neg (by omega)]
    exact runMax_mono _ _

theorem tabTrap_strict {N : ℕ} (hN : 0 < N) {f : ℕ → ℝ} (hf : ∀ j, j ≤ N → 0 < f j) {k : ℕ} (hk : k < N) :
    tabTrap N f k < tabTrap N f (k + 1) := by
  rw [tabTrap_succ]
  have h1 := hf k hk.le
  have h2 := hf (k + 1) hk
  have : 0 < 1 / 2 * (f k + f (k + 1)) * (2 * π / N) := by positivity
  linarith

theorem tabTrap_nonneg {N : ℕ} {f : ℕ → ℝ} (hf : ∀ j, j ≤ N → 0 < f j) {k : ℕ} (hk : k ≤ N) : 0 ≤ tabTrap N f k := by
  unfold tabTrap
  refine mul_nonneg (Finset.sum_nonneg fun j hj => ?_) (by positivity)
  have := Finset.mem_range.1 hj
  have h1 := hf j (by omega)
  have h2 := hf (j + 1) (by omega)
  linarith

/-- When the sums stay below 1, the table holds the sums. -/
theorem tabCumul_eq {N : ℕ} (hN : 0 < N) {f : ℕ → ℝ} (hf : ∀ j, j ≤ N → 0 < f j) (h1 : tabTrap N f N ≤ 1) {k : ℕ} (hk : k < N) :
    tabCumul N f k = tabTrap N f k := by
  have hinc : Increasing N (tabTrap N f) := fun i hi => tabTrap_strict hN hf hi
  have hb : ∀ i, i ≤ N → clip (tabTrap N f i) 0 1 = tabTrap N f i := fun i hi => clip_id (tabTrap_nonneg hf hi) (by
    rcases Nat.eq_or_lt_of_le hi with h | h
    · rw [h]; exact h1
    · exact (hinc.lt h (le_refl N)).le.trans h1)
  unfold tabCumul
  rw [if_neg (by omega), runMax_eq]
  · exact hb k hk.le
  · intro i hi
    show clip (tabTrap N f i) 0 1 ≤ clip (tabTrap N f (i + 1)) 0 1
    rw [hb i (by omega), hb (i + 1) (by omega)]
    exact (hinc i (by omega)).le

/-- A positive table with sum at most 1 is increasing. -/
theorem tabCumul_increasing {N : ℕ} (hN : 0 < N) {f : ℕ → ℝ} (hf : ∀ j, j ≤ N → 0 < f j) (h1 : tabTrap N f N ≤ 1) :
    Increasing N (tabCumul N f) := fun k hk => by
  have hinc : Increasing N (tabTrap N f) := fun i hi => tabTrap_strict hN hf hi
  rw [tabCumul_eq hN hf h1 hk]
  rcases Nat.eq_or_lt_of_le (Nat.succ_le_of_lt hk) with h | h
  · rw [show k + 1 = N from h, tabCumul_last]
    exact (hinc.lt hk (le_refl N)).trans_le h1
  · rw [tabCumul_eq hN hf h1 h]
    exact hinc k hk

theorem tabRel_mem (x mu : ℝ) : -π ≤ tabRel x mu ∧ tabRel x mu < π := by
  unfold tabRel
  have := pymod_nonneg two_pi_pos (x - mu + π)
  have := pymod_lt two_pi_pos (x - mu + π)
  constructor <;> linarith

theorem tabH_mem {N : ℕ} (hN : 0 < N) (f : ℕ → ℝ) {phi : ℝ} (h0 : -π ≤ phi) (h1 : phi ≤ π) :
    0 ≤ tabH N f phi ∧ tabH N f phi ≤ 1 := by
  have := pchip_range hN (tabGrid_increasing hN) (ys := tabCumul N f) (fun i hi => tabCumul_mono N f hi) (x := phi)
    (by rw [tabGrid_zero]; exact h0) (by rw [tabGrid_last hN]; exact h1)
  rw [tabCumul_zero hN, tabCumul_last] at this
  exact this

theorem tabH_mono {N : ℕ} (hN : 0 < N) (f : ℕ → ℝ) {a b : ℝ} (h0 : -π ≤ a) (hab : a ≤ b) (h1 : b ≤ π) :
    tabH N f a ≤ tabH N f b :=
  pchip_mono hN (tabGrid_increasing hN) (ys := tabCumul N f) (fun _ hi => tabCumul_mono N f hi) (by rw [tabGrid_zero]; exact h0) hab
    (by rw [tabGrid_last hN]; exact h1)

theorem tabH_strict {N : ℕ} (hN : 0 < N) {f : ℕ → ℝ} (hs : Increasing N (tabCumul N f)) {a b : ℝ} (h0 : -π ≤ a) (hab : a < b)
    (h1 : b ≤ π) : tabH N f a < tabH N f b :=
  pchip_strict hN (tabGrid_increasing hN) hs (by rw [tabGrid_zero]; exact h0) hab (by rw [tabGrid_last hN]; exact h1)

theorem tabH_ends {N : ℕ} (hN : 0 < N) (f : ℕ → ℝ) : tabH N f (-π) = 0 ∧ tabH N f π = 1 := by
  have a := pchip_node hN (tabGrid_increasing hN) (tabCumul N f) (i := 0) (by omega)
  have b := pchip_node hN (tabGrid_increasing hN) (tabCumul N f) (i := N) (le_refl N)
  rw [tabGrid_zero, tabCumul_zero hN] at a
  rw [tabGrid_last hN, tabCumul_last] at b
  exact ⟨a, b⟩

theorem tabH_node {N : ℕ} (hN : 0 < N) (f : ℕ → ℝ) {i : ℕ} (hi : i ≤ N) : tabH N f (tabGrid N i) = tabCumul N f i :=
  pchip_node hN (tabGrid_increasing hN) (tabCumul N f) hi

/-- The relative angle as a function of the angle. -/
theorem tabRel_cases {x : ℝ} (h0 : 0 ≤ x) (h1 : x < 2 * π) (mu : ℝ) :
    (tabRel 0 mu + x < π ∧ tabRel x mu = tabRel 0 mu + x) ∨
    (π ≤ tabRel 0 mu + x ∧ tabRel x mu = tabRel 0 mu + x - 2 * π) := by
  have hp := two_pi_pos
  obtain ⟨a, b⟩ := tabRel_mem 0 mu
  obtain ⟨k, hk⟩ := pymod_cong (0 - mu + π) (2 * π)
  rcases lt_or_ge (tabRel 0 mu + x) π with h | h
  · refine Or.inl ⟨h, ?_⟩
    have : pymod (x - mu + π) (2 * π) = pymod (0 - mu + π) (2 * π) + x :=
      (pymod_eq_iff hp).mpr ⟨by unfold tabRel at a; linarith, by unfold tabRel at h; linarith, ⟨k, by linarith⟩⟩
    unfold tabRel
    rw [this]; ring
  · refine Or.inr ⟨h, ?_⟩
    have : pymod (x - mu + π) (2 * π) = pymod (0 - mu + π) (2 * π) + x - 2 * π :=
      (pymod_eq_iff hp).mpr ⟨by unfold tabRel at h; linarith, by unfold tabRel at b; linarith, ⟨k - 1, by push_cast; linarith⟩⟩
    unfold tabRel
    rw [this]; ring

theorem tabCdf_mem (N : ℕ) (f : ℕ → ℝ) (mu x : ℝ) : 0 ≤ tabCdf N f mu x ∧ tabCdf N f mu x ≤ 1 := by
  unfold tabCdf
  simp only
  split_ifs
  · norm_num
  · exact clip_mem _
  · exact clip_mem _

theorem tabCdf_zero (N : ℕ) (f : ℕ → ℝ) (mu : ℝ) : tabCdf N f mu 0 = 0 := by
  unfold tabCdf
  simp only
  rw [if_neg, if_neg (lt_irrefl _), sub_self, clip_id (le_refl _) (by norm_num)]
  unfold isclose
  have := pi_gt_three
  rw [zero_sub, abs_neg, abs_of_pos two_pi_pos]
  norm_num
  linarith

/-- Away from `2π` and with an increasing table, the value is the increment of the interpolant from the
origin, counted through the end of the table. -/
theorem tabCdf_eq {N : ℕ} (hN : 0 < N) {f : ℕ → ℝ} (hs : Increasing N (tabCumul N f)) (mu : ℝ) {x : ℝ} (h0 : 0 ≤ x)
    (h1 : x < 2 * π - 1 / 10 ^ 12) :
    tabCdf N f mu x = if tabRel 0 mu + x < π then tabH N f (tabRel 0 mu + x) - tabH N f (tabRel 0 mu)
      else tabH N f (tabRel 0 mu + x - 2 * π) - tabH N f (tabRel 0 mu) + 1 := by
  have hx2 : x < 2 * π := h1.trans (by norm_num)
  obtain ⟨a, b⟩ := tabRel_mem 0 mu
  have hnc : ¬ isclose x (2 * π) 0 (1 / 10 ^ 12) := by
    unfold isclose
    rw [abs_sub_comm, abs_of_pos (by linarith)]
    norm_num
    norm_num at h1
    linarith
  unfold tabCdf
  simp only
  rw [if_neg hnc]
  rcases tabRel_cases h0 hx2 mu with ⟨c, e⟩ | ⟨c, e⟩
  · rw [e, if_pos c, if_neg (not_lt.2 (tabH_mono hN f a (by linarith) c.le))]
    have m0 := tabH_mono hN f a (by linarith : tabRel 0 mu ≤ tabRel 0 mu + x) c.le
    have m1 := (tabH_mem hN f (by linarith : -π ≤ tabRel 0 mu + x) c.le).2
    have m2 := (tabH_mem hN f a b.le).1
    exact clip_id (by linarith) (by linarith)
  · have hl : tabH N f (tabRel 0 mu + x - 2 * π) < tabH N f (tabRel 0 mu) :=
      tabH_strict hN hs (by linarith) (by linarith) b.le
    rw [e, if_neg (not_lt.2 c), if_pos hl]
    have m1 := (tabH_mem hN f (by linarith : -π ≤ tabRel 0 mu + x - 2 * π) (by linarith)).1
    have m2 := (tabH_mem hN f a b.le).2
    exact clip_id (by linarith) (by linarith)

/-- With an increasing table the cdf is non-decreasing. -/
theorem tabCdf_mono {N : ℕ} (hN : 0 < N) {f : ℕ → ℝ} (hs : Increasing N (tabCumul N f)) (mu : ℝ) {x y : ℝ} (h0 : 0 ≤ x)
    (hxy : x ≤ y) (h1 : y ≤ 2 * π) : tabCdf N f mu x ≤ tabCdf N f mu y := by
  rcases lt_or_ge y (2 * π - 1 / 10 ^ 12) with h | h
  · rw [tabCdf_eq hN hs mu h0 (hxy.trans_lt h), tabCdf_eq hN hs mu (h0.trans hxy) h]
    obtain ⟨a, b⟩ := tabRel_mem 0 mu
    have hy2 : y < 2 * π := h.trans (by norm_num)
    split_ifs with c d d
    · have := tabH_mono hN f (by linarith : -π ≤ tabRel 0 mu + x) (by linarith : tabRel 0 mu + x ≤ tabRel 0 mu + y) d.le
      linarith
    · have m1 := (tabH_mem hN f (by linarith : -π ≤ tabRel 0 mu + x) c.le).2
      have m2 := (tabH_mem hN f (by linarith : -π ≤ tabRel 0 mu + y - 2 * π) (by linarith)).1
      linarith
    · exact absurd (by linarith) c
    · have := tabH_mono hN f (by linarith : -π ≤ tabRel 0 mu + x - 2 * π)
        (by linarith : tabRel 0 mu + x - 2 * π ≤ tabRel 0 mu + y - 2 * π) (by linarith)
      linarith
  · have : tabCdf N f mu y = 1 := by
      unfold tabCdf
      simp only
      rw [if_pos]
      unfold isclose
      rw [abs_sub_comm, abs_of_nonneg (by linarith)]
      norm_num
      norm_num at h
      linarith
    rw [this]
    exact (tabCdf_mem N f mu x).2

end Verif
