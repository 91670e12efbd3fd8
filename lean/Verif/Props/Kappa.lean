import Verif.Model.Range
import Verif.Lemmas.Descriptive
import Mathlib.Tactic.IntervalCases

/-!
# C28: concentration estimate
-/

set_option autoImplicit false

namespace Verif.Props

open Verif Real

private lemma k1 {r : ℝ} (h : r < 0.53) : circKappa r none = 2 * r + r ^ 3 + 5 * r ^ 5 / 6 := by
  simp only [circKappa, kappaRaw, if_pos h]

private lemma k2 {r : ℝ} (h : 0.53 ≤ r) (h' : r < 0.85) :
    circKappa r none = -0.4 + 1.39 * r + 0.43 / (1 - r) := by
  simp only [circKappa, kappaRaw, if_neg (not_lt.2 h), if_pos h']

private lemma nom_pos {r : ℝ} (h : 0 < r) (h' : r < 1) : 0 < r ^ 3 - 4 * r ^ 2 + 3 * r := by
  have : r ^ 3 - 4 * r ^ 2 + 3 * r = r * ((1 - r) * (3 - r)) := by ring
  rw [this]
  exact mul_pos h (mul_pos (by linarith) (by linarith))

private lemma k3 {r : ℝ} (h : 0.85 ≤ r) (h' : r < 1) :
    circKappa r none = 1 / (r ^ 3 - 4 * r ^ 2 + 3 * r) := by
  have h1 : ¬ r < 0.53 := by norm_num at *; linarith
  have := nom_pos (by norm_num at h; linarith) h'
  simp only [circKappa, kappaRaw, if_neg h1, if_neg (not_lt.2 h)]
  rw [if_pos this.ne']

/-- On `[0, 1)` the estimate is non-negative, and positive away from 0. -/
theorem C28_kappa_nonneg (r : ℝ) (h0 : 0 ≤ r) (h1 : r < 1) :
    0 ≤ circKappa r none ∧ (0 < r → 0 < circKappa r none) := by
  have key : 0 < r → 0 < circKappa r none := by
    intro hr
    rcases lt_or_ge r 0.53 with h | h
    · rw [k1 h]; positivity
    · rcases lt_or_ge r 0.85 with h' | h'
      · rw [k2 h h']
        have : 0 < 0.43 / (1 - r) := div_pos (by norm_num) (by linarith)
        have h2 : (0 : ℝ) < -0.4 + 1.39 * r := by norm_num at h ⊢; linarith
        linarith
      · rw [k3 h' h1]
        exact one_div_pos.2 (nom_pos hr h1)
  refine ⟨?_, key⟩
  rcases h0.eq_or_lt with h | h
  · rw [← h, k1 (by norm_num)]; norm_num
  · exact (key h).le

/-- On each of the three pieces of `[0, 1)` the estimate is strictly increasing. -/
theorem C28_kappa_strictMono :
    StrictMonoOn (fun r => circKappa r none) (Set.Ico 0 0.53) ∧
    StrictMonoOn (fun r => circKappa r none) (Set.Ico 0.53 0.85) ∧
    StrictMonoOn (fun r => circKappa r none) (Set.Ico 0.85 1) := by
  refine ⟨?_, ?_, ?_⟩
  · rintro a ⟨ha, ha'⟩ b ⟨hb, hb'⟩ hab
    simp only
    rw [k1 ha', k1 hb']
    have h3 : a ^ 3 < b ^ 3 := pow_lt_pow_left₀ hab ha (by norm_num)
    have h5 : a ^ 5 < b ^ 5 := pow_lt_pow_left₀ hab ha (by norm_num)
    linarith
  · rintro a ⟨ha, ha'⟩ b ⟨hb, hb'⟩ hab
    simp only
    rw [k2 ha ha', k2 hb hb']
    have hb1 : 0 < 1 - b := by norm_num at hb'; linarith
    have : 0.43 / (1 - a) < 0.43 / (1 - b) :=
      div_lt_div_of_pos_left (by norm_num) hb1 (by linarith)
    norm_num at this ⊢
    linarith
  · rintro a ⟨ha, ha'⟩ b ⟨hb, hb'⟩ hab
    simp only
    rw [k3 ha ha', k3 hb hb']
    have hb0 : 0 < b := by norm_num at hb; linarith
    apply one_div_lt_one_div_of_lt (nom_pos hb0 hb')
    have e : (a ^ 3 - 4 * a ^ 2 + 3 * a) - (b ^ 3 - 4 * b ^ 2 + 3 * b)
        = (b - a) * (4 * (a + b) - 3 - (a ^ 2 + a * b + b ^ 2)) := by ring
    have h1 : 0 < 4 * (a + b) - 3 - (a ^ 2 + a * b + b ^ 2) := by
      norm_num at ha hb; nlinarith
    have := mul_pos (sub_pos.2 hab) h1
    linarith

/-- The pieces increase across 0.53 but not across 0.85: the estimate is not monotone in the
resultant length. -/
theorem C28_kappa_not_monotone :
    (∀ a b : ℝ, 0 ≤ a → a < 0.53 → 0.53 ≤ b → b < 0.85 → circKappa a none < circKappa b none) ∧
    ∃ a b : ℝ, 0 ≤ a ∧ a < b ∧ b < 1 ∧ circKappa b none < circKappa a none := by
  constructor
  · intro a b h0 h1 h2 h3
    rw [k1 h1, k2 h2 h3]
    have ha3 : a ^ 3 ≤ 0.53 ^ 3 := pow_le_pow_left₀ h0 h1.le 3
    have ha5 : a ^ 5 ≤ 0.53 ^ 5 := pow_le_pow_left₀ h0 h1.le 5
    have hb : 0.43 / (1 - 0.53) ≤ 0.43 / (1 - b) := by
      apply div_le_div_of_nonneg_left (by norm_num) (by linarith) (by linarith)
    norm_num at *
    linarith
  · refine ⟨0.849999, 0.85, by norm_num, by norm_num, by norm_num, ?_⟩
    rw [k3 (by norm_num) (by norm_num), k2 (by norm_num) (by norm_num)]
    norm_num

/-- On `[0, 1)` the estimate is the same as `A1inv`. -/
theorem C28_kappa_eq_a1inv (r : ℝ) (h0 : 0 ≤ r) (h1 : r < 1) :
    a1inv r = some (circKappa r none) := by
  unfold a1inv
  rcases lt_or_ge r 0.53 with h | h
  · rw [if_pos ⟨h0, h⟩, k1 h]
  · rw [if_neg (by intro hh; exact absurd hh.2 (not_lt.2 h))]
    rcases lt_or_ge r 0.85 with h' | h'
    · rw [if_pos h', k2 h h']
    · rw [if_neg (not_lt.2 h'), k3 h' h1]
      have := nom_pos (by norm_num at h; linarith) h1
      rw [pydiv, if_neg this.ne']

/-- At `r = 1` the estimate collapses to `1e-16`, although it exceeds every bound just below 1. -/
theorem C28_kappa_at_one : circKappa 1 none = 1 / 10 ^ 16 ∧
    ∀ M : ℝ, ∃ r, r < 1 ∧ ∀ s, r ≤ s → s < 1 → M < circKappa s none := by
  constructor
  · simp only [circKappa, kappaRaw]
    rw [if_neg (by norm_num), if_neg (by norm_num), if_neg (by norm_num)]
  · intro M
    set K := max M 1 with hK
    have hK1 : 1 ≤ K := le_max_right _ _
    refine ⟨max 0.85 (1 - 1 / (4 * K)), max_lt (by norm_num) (by
      have : 0 < 1 / (4 * K) := by positivity
      linarith), ?_⟩
    intro s hs hs1
    have h1 := (le_max_left _ _).trans hs
    have h2 := (le_max_right _ _).trans hs
    rw [k3 h1 hs1]
    have hs0 : 0 < s := by norm_num at h1; linarith
    have hn := nom_pos hs0 hs1
    have hlt : s ^ 3 - 4 * s ^ 2 + 3 * s < 1 / K := by
      have e : s ^ 3 - 4 * s ^ 2 + 3 * s = s * (1 - s) * (3 - s) := by ring
      have h3 : 1 - s ≤ 1 / (4 * K) := by linarith
      have h4 : s * (1 - s) * (3 - s) ≤ (1 - s) * 3 := by nlinarith
      have h5 : (1 - s) * 3 ≤ 1 / (4 * K) * 3 := by linarith
      have h6 : 1 / (4 * K) * 3 < 1 / K := by
        rw [div_mul_eq_mul_div, div_lt_div_iff₀ (by positivity) (by positivity)]; linarith
      rw [e]; linarith
    have : M ≤ K := le_max_left _ _
    calc M ≤ K := this
      _ = 1 / (1 / K) := by rw [one_div_one_div]
      _ < _ := one_div_lt_one_div_of_lt hn hlt

/-- The small-sample correction (`n ≤ 15`, `r < 0.7`) stays between 0 and the uncorrected value. -/
theorem C28_kappa_corrected (r : ℝ) (n : ℕ) (h0 : 0 ≤ r) (h1 : r < 0.7) (hn : 1 ≤ n) (hn' : n ≤ 15) :
    0 ≤ circKappa r (some n) ∧ circKappa r (some n) ≤ circKappa r none := by
  have hk : 0 ≤ kappaRaw r := (C28_kappa_nonneg r h0 (by norm_num at h1; linarith)).1
  have hn1 : (1 : ℝ) ≤ n := by exact_mod_cast hn
  simp only [circKappa]
  rw [if_pos ⟨hn', h1⟩]
  split_ifs with h2 h3
  · exact ⟨le_rfl, hk⟩
  · refine ⟨le_max_right _ _, max_le ?_ hk⟩
    have : 0 ≤ 2 * 1 / ((n : ℝ) * kappaRaw r) := by positivity
    linarith
  · have hpos : (0 : ℝ) < (n : ℝ) ^ 3 + n := by positivity
    have hm : 0 ≤ ((n : ℝ) - 1) ^ 3 := pow_nonneg (by linarith) 3
    constructor
    · positivity
    · rw [div_le_iff₀ hpos, mul_comm]
      apply mul_le_mul_of_nonneg_left _ hk
      nlinarith [sq_nonneg ((n : ℝ) - 1)]

/-- Larger samples or larger resultants are not corrected. -/
theorem C28_kappa_uncorrected (r : ℝ) (n : ℕ) (h : 15 < n ∨ 0.7 ≤ r) :
    circKappa r (some n) = circKappa r none := by
  simp only [circKappa]
  rw [if_neg]
  rintro ⟨h1, h2⟩
  rcases h with h | h
  · omega
  · linarith

/-- A corrected value strictly between 0 and the uncorrected one: `r = 0.6`, `n = 10`. -/
example : 0 < circKappa 0.6 (some 10) ∧ circKappa 0.6 (some 10) < circKappa 0.6 none := by
  have hk : kappaRaw 0.6 = 1.509 := by
    unfold kappaRaw
    rw [if_neg (by norm_num), if_pos (by norm_num)]; norm_num
  simp only [circKappa, hk]
  rw [if_pos (by norm_num), if_pos (by norm_num), if_neg (by norm_num)]
  constructor
  · apply lt_max_of_lt_left; norm_num
  · apply max_lt <;> norm_num

end Verif.Props
