import Verif.Lemmas.TableError

/-! # Quantiles read from a tabulated distribution function -/

set_option autoImplicit false

namespace Verif

open Real

/-- The search never leaves its bracket. -/
theorem tabNewton_mem (H f : ℝ → ℝ) (target : ℝ) (k : ℕ) {phi lo hi : ℝ} (h0 : lo ≤ phi) (h1 : phi ≤ hi) :
    lo ≤ tabNewton H f target k phi lo hi ∧ tabNewton H f target k phi lo hi ≤ hi := by
  induction k generalizing phi lo hi with
  | zero => exact ⟨h0, h1⟩
  | succ k ih =>
    have step : ∀ c lo' hi' : ℝ, lo ≤ lo' → hi' ≤ hi → lo' ≤ hi' →
        lo ≤ tabNewton H f target k (clip c lo' hi') lo' hi' ∧ tabNewton H f target k (clip c lo' hi') lo' hi' ≤ hi := fun c lo' hi' a b d => by
      have := ih (phi := clip c lo' hi') (lo := lo') (hi := hi') (by unfold clip; exact le_min (le_max_right _ _) d)
        (by unfold clip; exact min_le_right _ _)
      exact ⟨a.trans this.1, this.2.trans b⟩
    unfold tabNewton
    simp only
    by_cases c : |H phi - target| ≤ 1 / 10 ^ 12 ∧ hi - lo ≤ 1 / 10 ^ 10
    · rw [if_pos c]; exact ⟨h0, h1⟩
    · rw [if_neg c]
      by_cases r : 0 < H phi - target
      · simp only [if_pos r]
        exact step _ _ _ (le_refl _) (min_le_left _ _) (le_min (h0.trans h1) h0)
      · simp only [if_neg r]
        exact step _ _ _ (le_max_left _ _) (le_refl _) (max_le (h0.trans h1) h1)

/-- The cell that brackets the target. -/
theorem tabCount_cell {N : ℕ} {c : ℕ → ℝ} (hc : Increasing N c) {target : ℝ} (h0 : c 0 ≤ target) (h1 : target < c N) :
    1 ≤ tabCount N c target ∧ tabCount N c target ≤ N ∧ c (tabCount N c target - 1) ≤ target ∧ target < c (tabCount N c target) := by
  classical
  obtain ⟨m, hm⟩ : ∃ m, m = Nat.findGreatest (fun j => c j ≤ target) N := ⟨_, rfl⟩
  have hmN : m ≤ N := by rw [hm]; exact Nat.findGreatest_le _
  have hcm : c m ≤ target := by rw [hm]; exact Nat.findGreatest_spec (P := fun j => c j ≤ target) (Nat.zero_le _) h0
  have hlt : m < N := by
    rcases Nat.eq_or_lt_of_le hmN with h | h
    · rw [h] at hcm; linarith
    · exact h
  have hgt : ∀ j, m < j → j ≤ N → target < c j := fun j a b => by
    have := Nat.findGreatest_is_greatest (P := fun j => c j ≤ target) (n := N) (k := j) (by rw [← hm]; exact a) b
    exact not_le.1 this
  have hf : (Finset.range (N + 1)).filter (fun j => c j ≤ target) = Finset.range (m + 1) := by
    ext j
    simp only [Finset.mem_filter, Finset.mem_range]
    constructor
    · rintro ⟨a, b⟩
      by_contra h
      have := hgt j (by omega) (by omega)
      linarith
    · intro a
      refine ⟨by omega, ?_⟩
      rcases Nat.eq_or_lt_of_le (Nat.lt_succ_iff.1 a) with h | h
      · rw [h]; exact hcm
      · exact (hc.lt h hmN).le.trans hcm
  have hcount : tabCount N c target = m + 1 := by
    unfold tabCount
    rw [show (Finset.range (N + 1)).filter (fun j => c j ≤ target) = Finset.range (m + 1) from by convert hf, Finset.card_range]
  rw [hcount, Nat.add_sub_cancel]
  exact ⟨by omega, by omega, hcm, hgt _ (by omega) (by omega)⟩

/-- The relative angle found for a probability. -/
theorem tabSolve_spec {N : ℕ} (hN : 0 < N) {f : ℕ → ℝ} (hc : Increasing N (tabCumul N f)) (g guess : ℝ → ℝ) (rounds : ℕ) (mu q : ℝ)
    {B : ℝ} (hB : ∀ i, i < N → tabCumul N f (i + 1) - tabCumul N f i ≤ B) :
    -π ≤ tabSolve N f g guess rounds mu q ∧ tabSolve N f g guess rounds mu q ≤ π ∧
    ∃ k : ℤ, |tabH N f (tabSolve N f g guess rounds mu q) - tabH N f (tabRel 0 mu) - q - k| ≤ B := by
  unfold tabSolve
  simp only
  obtain ⟨t, ht⟩ : ∃ t, t = pymod (tabH N f (tabRel 0 mu) + q) 1 := ⟨_, rfl⟩
  rw [← ht]
  have ht0 : 0 ≤ t := by rw [ht]; exact pymod_nonneg one_pos _
  have ht1 : t < 1 := by rw [ht]; exact pymod_lt one_pos _
  obtain ⟨k, hk⟩ := pymod_cong (tabH N f (tabRel 0 mu) + q) 1
  rw [← ht] at hk
  obtain ⟨c1, c2, c3, c4⟩ := tabCount_cell hc (target := t) (by rw [tabCumul_zero hN]; exact ht0) (by rw [tabCumul_last]; exact ht1)
  rw [show min (max (tabCount N (tabCumul N f) t) 1) N = tabCount N (tabCumul N f) t by omega]
  generalize tabCount N (tabCumul N f) t = i at *
  obtain ⟨i, rfl⟩ : ∃ j, i = j + 1 := ⟨i - 1, by omega⟩
  rw [Nat.add_sub_cancel] at c3 ⊢
  have hgi := tabGrid_increasing hN i (by omega)
  obtain ⟨m0, m1⟩ := tabNewton_mem (tabH N f) g t rounds (phi := clip (guess t) (tabGrid N i) (tabGrid N (i + 1))) (lo := tabGrid N i)
    (hi := tabGrid N (i + 1)) (by unfold clip; exact le_min (le_max_right _ _) hgi.le) (by unfold clip; exact min_le_right _ _)
  generalize tabNewton (tabH N f) g t rounds _ _ _ = phi at *
  have hw : 0 < 2 * π / (N : ℝ) := by positivity
  have hlo : -π ≤ tabGrid N i := by unfold tabGrid; have : 0 ≤ (i : ℝ) * (2 * π / N) := by positivity
                                    linarith
  have hhi : tabGrid N (i + 1) ≤ π := by
    rw [← tabGrid_last hN]
    unfold tabGrid
    have : ((i + 1 : ℕ) : ℝ) ≤ N := by exact_mod_cast c2
    nlinarith
  refine ⟨hlo.trans m0, m1.trans hhi, k, ?_⟩
  have h1 := tabH_mono hN f hlo m0 (m1.trans hhi)
  have h2 := tabH_mono hN f (hlo.trans m0) m1 hhi
  rw [tabH_node hN f (by omega)] at h1 h2
  have h3 := hB i (by omega)
  rw [abs_le]
  constructor <;> linarith

/-- The cdf read from the table, up to whole numbers. -/
theorem tabCdf_mod {N : ℕ} (hN : 0 < N) (f : ℕ → ℝ) (mu : ℝ) {x : ℝ} (hx : ¬ isclose x (2 * π) 0 (1 / 10 ^ 12)) :
    ∃ k : ℤ, tabCdf N f mu x = tabH N f (tabRel x mu) - tabH N f (tabRel 0 mu) + k := by
  obtain ⟨a, b⟩ := tabRel_mem x mu
  obtain ⟨a', b'⟩ := tabRel_mem 0 mu
  obtain ⟨h0, h1⟩ := tabH_mem hN f a b.le
  obtain ⟨h0', h1'⟩ := tabH_mem hN f a' b'.le
  unfold tabCdf
  simp only
  rw [if_neg hx]
  split_ifs with c
  · refine ⟨1, ?_⟩
    unfold clip
    rw [max_eq_left (by linarith), min_eq_left (by linarith)]
    push_cast; ring
  · refine ⟨0, ?_⟩
    unfold clip
    rw [max_eq_left (by linarith), min_eq_left (by linarith)]
    push_cast; ring

/-- The quantile found is an angle whose cdf is the probability, up to whole numbers and the bound `B`. -/
theorem tabPpf_spec {N : ℕ} (hN : 0 < N) {f : ℕ → ℝ} (hc : Increasing N (tabCumul N f)) (g guess : ℝ → ℝ) (rounds : ℕ) (mu : ℝ) {q : ℝ}
    {B : ℝ} (hB : ∀ i, i < N → tabCumul N f (i + 1) - tabCumul N f i ≤ B) :
    0 ≤ tabPpf N f g guess rounds mu q ∧ tabPpf N f g guess rounds mu q ≤ 2 * π ∧
    (2 * π - 1 / 10 ^ 12 ≤ tabPpf N f g guess rounds mu q ∨
      ∃ k : ℤ, |tabCdf N f mu (tabPpf N f g guess rounds mu q) - q - k| ≤ max B (1 / 10 ^ 12)) := by
  have hp := two_pi_pos
  unfold tabPpf
  split_ifs with c1 c2
  · refine ⟨le_refl _, hp.le, Or.inr ⟨0, ?_⟩⟩
    rw [tabCdf_zero]
    unfold isclose at c1
    rw [zero_mul, add_zero] at c1
    refine le_trans (le_of_eq ?_) (c1.trans (le_max_right _ _))
    push_cast
    rw [← abs_neg]
    congr 1
    ring
  · exact ⟨hp.le, le_refl _, Or.inl (by linarith [show (0 : ℝ) < 1 / 10 ^ 12 by positivity])⟩
  · obtain ⟨p0, p1, k, hk⟩ := tabSolve_spec hN hc g guess rounds mu q hB
    generalize tabSolve N f g guess rounds mu q = phi at *
    have hx0 := pymod_nonneg two_pi_pos (mu + phi)
    have hx1 := pymod_lt two_pi_pos (mu + phi)
    obtain ⟨m, hm⟩ := pymod_cong (mu + phi) (2 * π)
    generalize pymod (mu + phi) (2 * π) = x at *
    refine ⟨hx0, hx1.le, ?_⟩
    by_cases hcl : isclose x (2 * π) 0 (1 / 10 ^ 12)
    · left
      unfold isclose at hcl
      rw [zero_mul, add_zero] at hcl
      linarith [(abs_le.1 hcl).1]
    right
    have hrel : ∃ n : ℤ, tabH N f (tabRel x mu) = tabH N f phi + n := by
      obtain ⟨n, hn⟩ := tabRel_congr x mu
      obtain ⟨r0, r1⟩ := tabRel_mem x mu
      have e : tabRel x mu = phi + (n + m : ℤ) * (2 * π) := by rw [hn, hm]; push_cast; ring
      rcases p1.lt_or_eq with hlt | heq
      · have : (n + m : ℤ) = 0 := by
          by_contra h
          rcases lt_or_gt_of_ne h with h' | h'
          · have : ((n + m : ℤ) : ℝ) ≤ -1 := by exact_mod_cast Int.le_sub_one_of_lt h'
            nlinarith
          · have : (1 : ℝ) ≤ ((n + m : ℤ) : ℝ) := by exact_mod_cast h'
            nlinarith
        rw [e, this]
        exact ⟨0, by simp⟩
      · have h2 : (n + m : ℤ) = -1 := by
          have a : ((n + m : ℤ) : ℝ) < 0 := by
            by_contra h
            push Not at h
            nlinarith
          have b : (-1 : ℝ) ≤ ((n + m : ℤ) : ℝ) := by
            by_contra h
            push Not at h
            nlinarith
          have a' : (n + m : ℤ) < 0 := by exact_mod_cast a
          have b' : -1 ≤ (n + m : ℤ) := by exact_mod_cast b
          omega
        rw [e, h2, heq]
        refine ⟨-1, ?_⟩
        rw [show π + ((-1 : ℤ) : ℝ) * (2 * π) = -π by push_cast; ring, (tabH_ends hN f).1, (tabH_ends hN f).2]
        push_cast; ring
    obtain ⟨n, hn⟩ := hrel
    obtain ⟨j, hj⟩ := tabCdf_mod hN f mu hcl
    refine ⟨k + n + j, ?_⟩
    rw [hj, hn]
    push_cast
    refine le_trans (le_of_eq ?_) (hk.trans (le_max_left _ _))
    congr 1
    ring

end Verif
