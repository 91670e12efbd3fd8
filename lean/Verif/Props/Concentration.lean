import Verif.Lemmas.Groups

/-!
# C45: test of equal concentration of two samples
-/

set_option autoImplicit false

namespace Verif.Props

open Real Verif Verif.Spec

/-- Within-sample dispersion per degree of freedom. -/
noncomputable def dispersionRate (l : List ℝ) : ℝ := ((l.length : ℝ) - ‖resultant l‖) / ((l.length : ℝ) - 1)

/-- All observations of a sample are one direction. -/
def OneDirection (l : List ℝ) : Prop := ∃ m, ∀ x ∈ l, SameDir x m

private lemma rate_pos {l : List ℝ} (h2 : 2 ≤ l.length) (h : ¬ OneDirection l) : 0 < dispersionRate l := by
  have : (2 : ℝ) ≤ l.length := by exact_mod_cast h2
  exact div_pos (by linarith [norm_resultant_lt_length h]) (by linarith)

private lemma cast_sub_one {n : ℕ} (h : 2 ≤ n) : ((n - 1 : ℕ) : ℝ) = (n : ℝ) - 1 := by
  rw [Nat.cast_sub (by omega)]; simp

private lemma concentration_unfold {x y : List ℝ} (hx : 2 ≤ x.length) (hy : 2 ≤ y.length)
    (sf : ℝ → ℕ → ℕ → ℝ) : concentrationTest x y sf
      = concentrationOf x.length y.length ‖resultant x‖ ‖resultant y‖ sf := by
  have hx0 : x ≠ [] := by rintro rfl; simp at hx
  have hy0 : y ≠ [] := by rintro rfl; simp at hy
  unfold concentrationTest
  rw [if_neg (by omega), groupR_some hx0, groupR_some hy0]

/-- The statistic is the ratio of the two dispersions per degree of freedom, and the p value twice the
tail of the F distribution beyond the larger of the ratio and its inverse, at most 1. -/
theorem C45_concentration (x y : List ℝ) (sf : ℝ → ℕ → ℕ → ℝ) (hx : 2 ≤ x.length) (hy : 2 ≤ y.length)
    (hx1 : ¬ OneDirection x) (hy1 : ¬ OneDirection y) :
    ∃ r, concentrationTest x y sf = .ok r ∧ r.fStat = dispersionRate x / dispersionRate y ∧
      r.df1 = x.length - 1 ∧ r.df2 = y.length - 1 ∧
      (1 ≤ r.fStat → r.pval = min (2 * sf r.fStat r.df1 r.df2) 1) ∧
      (r.fStat < 1 → r.pval = min (2 * sf (1 / r.fStat) r.df2 r.df1) 1) := by
  have hxp := norm_resultant_lt_length hx1
  have hyp := norm_resultant_lt_length hy1
  have h1 : (2 : ℝ) ≤ x.length := by exact_mod_cast hx
  have h2 : (2 : ℝ) ≤ y.length := by exact_mod_cast hy
  rw [concentration_unfold hx hy]
  unfold concentrationOf
  simp only [cast_sub_one hx, cast_sub_one hy]
  have hn : 0 < ((y.length : ℝ) - 1) * (x.length - ‖resultant x‖) := mul_pos (by linarith) (by linarith)
  have hd : 0 < ((x.length : ℝ) - 1) * (y.length - ‖resultant y‖) := mul_pos (by linarith) (by linarith)
  rw [if_neg (by push Not; exact ⟨hd, hn⟩)]
  refine ⟨_, rfl, ?_, rfl, rfl, fun h => ?_, fun h => ?_⟩
  · simp only [dispersionRate]
    have a1 : (x.length : ℝ) - 1 ≠ 0 := by linarith
    have a2 : (y.length : ℝ) - 1 ≠ 0 := by linarith
    have a3 : (y.length : ℝ) - ‖resultant y‖ ≠ 0 := by linarith
    field_simp
  · simp only at h ⊢
    rw [if_pos h]
  · simp only at h ⊢
    rw [if_neg (by linarith)]

/-- Degenerate inputs, and only those, are refused: a sample of fewer than two observations, or one
whose observations are all one direction. -/
theorem C45_refused (x y : List ℝ) (sf : ℝ → ℕ → ℕ → ℝ) :
    concentrationTest x y sf = .error .valueError ↔
      x.length < 2 ∨ y.length < 2 ∨ OneDirection x ∨ OneDirection y := by
  by_cases hx : x.length < 2
  · unfold concentrationTest; rw [if_pos (by omega)]; simp [hx]
  by_cases hy : y.length < 2
  · unfold concentrationTest; rw [if_pos (by omega)]; simp [hy]
  rw [not_lt] at hx hy
  constructor
  · intro h
    by_contra hc
    push Not at hc
    obtain ⟨r, hr, _⟩ := C45_concentration x y sf hx hy hc.2.2.1 hc.2.2.2
    rw [hr] at h; cases h
  · intro h
    rw [concentration_unfold hx hy]
    unfold concentrationOf
    rcases h with h | h | h | h
    · omega
    · omega
    · rw [if_pos]; right
      rw [(norm_resultant_eq_length_iff x).2 h]; simp
    · rw [if_pos]; left
      rw [(norm_resultant_eq_length_iff y).2 h]; simp

/-- Exchanging the samples inverts the statistic and exchanges the degrees of freedom. The p value is
the same, unless the statistic is exactly 1 and the sample sizes differ. -/
theorem C45_swap (x y : List ℝ) (sf : ℝ → ℕ → ℕ → ℝ) (r : ConcentrationResult)
    (h : concentrationTest x y sf = .ok r) :
    ∃ r', concentrationTest y x sf = .ok r' ∧ r'.fStat = 1 / r.fStat ∧ r'.df1 = r.df2 ∧ r'.df2 = r.df1 ∧
      (r.fStat ≠ 1 ∨ x.length = y.length → r'.pval = r.pval) := by
  have hok : ¬ (x.length < 2 ∨ y.length < 2 ∨ OneDirection x ∨ OneDirection y) := by
    rw [← C45_refused x y sf, h]; simp
  push Not at hok
  obtain ⟨hx, hy, hx1, hy1⟩ := hok
  obtain ⟨r1, e1, f1, d1, d2, p1, p2⟩ := C45_concentration x y sf hx hy hx1 hy1
  obtain ⟨r2, e2, f2, d1', d2', q1, q2⟩ := C45_concentration y x sf hy hx hy1 hx1
  rw [h] at e1
  cases e1
  have hinv : r2.fStat = 1 / r.fStat := by rw [f2, f1, one_div_div]
  have hpos : 0 < r.fStat := by rw [f1]; exact div_pos (rate_pos hx hx1) (rate_pos hy hy1)
  refine ⟨r2, e2, hinv, by rw [d1', d2], by rw [d2', d1], fun hne => ?_⟩
  rcases lt_trichotomy r.fStat 1 with hlt | heq | hgt
  · have : 1 ≤ r2.fStat := by rw [hinv]; exact (one_le_div hpos).2 hlt.le
    rw [q1 this, p2 hlt, hinv, d1', d2', d1, d2]
  · have hl : x.length = y.length := hne.resolve_left fun h => h heq
    have h2 : r2.fStat = 1 := by rw [hinv, heq]; norm_num
    rw [q1 h2.ge, p1 heq.ge, h2, heq, d1', d2', d1, d2, hl]
  · have : r2.fStat < 1 := by rw [hinv]; exact (div_lt_one hpos).2 hgt
    rw [q2 this, p1 hgt.le, hinv, d1', d2', d1, d2, one_div_one_div]

/-- Turning either sample changes nothing. -/
theorem C45_rotate (x y x' y' : List ℝ) (s t : ℝ) (sf : ℝ → ℕ → ℕ → ℝ)
    (hx : List.Forall₂ (fun a b => SameDir b (a + s)) x x')
    (hy : List.Forall₂ (fun a b => SameDir b (a + t)) y y') :
    concentrationTest x' y' sf = concentrationTest x y sf := by
  by_cases h : x.length < 2 ∨ y.length < 2
  · unfold concentrationTest
    rw [if_pos (by rw [← hx.length_eq, ← hy.length_eq]; omega), if_pos (by omega)]
  · rw [concentration_unfold (by rw [← hx.length_eq]; omega) (by rw [← hy.length_eq]; omega),
      concentration_unfold (by omega) (by omega),
      norm_resultant_rotate s hx, norm_resultant_rotate t hy, hx.length_eq, hy.length_eq]

private lemma res_pair (t : ℝ) : resultant [-t, t] = ((2 * cos t : ℝ) : ℂ) := by
  unfold resultant
  simp only [List.map_cons, List.map_nil, List.sum_cons, List.sum_nil, add_zero]
  apply Complex.ext
  · rw [Complex.add_re, exp_re, exp_re, cos_neg, Complex.ofReal_re]; ring
  · rw [Complex.add_im, exp_im, exp_im, sin_neg, Complex.ofReal_im]; ring

private lemma res_triple : resultant [-(2 * π / 3), 0, 2 * π / 3] = 0 := by
  have h : cos (2 * π / 3) = -1 / 2 := by
    rw [show 2 * π / 3 = π - π / 3 by ring, cos_pi_sub, cos_pi_div_three]; ring
  have : resultant [-(2 * π / 3), 0, 2 * π / 3]
      = resultant [-(2 * π / 3), 2 * π / 3] + resultant [0] := by
    unfold resultant; simp; ring
  rw [this, res_pair, h]
  simp [resultant]
  norm_num

private lemma triple_not_one : ¬ OneDirection [-(2 * π / 3), 0, 2 * π / 3] := by
  intro h
  have := (norm_resultant_eq_length_iff _).2 h
  rw [res_triple] at this
  norm_num at this

private lemma pair_not_one {t : ℝ} (h : |cos t| < 1) : ¬ OneDirection [-t, t] := by
  intro h1
  have := (norm_resultant_eq_length_iff _).2 h1
  rw [res_pair, Complex.norm_real, norm_eq_abs, abs_mul] at this
  norm_num at this
  linarith

/-- The hypotheses of `C45_concentration` can be met. -/
example : (2 ≤ [-(2 * π / 3), 0, 2 * π / 3].length ∧ ¬ OneDirection [-(2 * π / 3), 0, 2 * π / 3]) ∧
    ¬ OneDirection [-(π / 3), π / 3] := by
  refine ⟨⟨by simp, triple_not_one⟩, pair_not_one ?_⟩
  rw [cos_pi_div_three]
  norm_num [abs_of_pos]

/-- The p value is not symmetric where the statistic is exactly 1 and the sizes differ: the two samples
below have equal dispersion per degree of freedom, and the order in which they are given decides
whether the p value is 1 or smaller, unless 1 is the median of `F(1, 2)` (which it is not). -/
theorem C45_swap_fails (sf : ℝ → ℕ → ℕ → ℝ) (hrefl : sf 1 1 2 + sf 1 2 1 = 1) (hmed : sf 1 1 2 ≠ 1 / 2) :
    ∃ r r', concentrationTest [-arccos (1 / 4), arccos (1 / 4)] [-(2 * π / 3), 0, 2 * π / 3] sf = .ok r ∧
      concentrationTest [-(2 * π / 3), 0, 2 * π / 3] [-arccos (1 / 4), arccos (1 / 4)] sf = .ok r' ∧
      r.pval ≠ r'.pval := by
  have hc : cos (arccos (1 / 4)) = 1 / 4 := cos_arccos (by norm_num) (by norm_num)
  have hx1 : ¬ OneDirection [-arccos (1 / 4), arccos (1 / 4)] :=
    pair_not_one (by rw [hc]; norm_num [abs_of_pos])
  have rx : dispersionRate [-arccos (1 / 4), arccos (1 / 4)] = 3 / 2 := by
    unfold dispersionRate
    rw [res_pair, hc, Complex.norm_real]
    norm_num [abs_of_pos]
  have ry : dispersionRate [-(2 * π / 3), 0, 2 * π / 3] = 3 / 2 := by
    unfold dispersionRate
    rw [res_triple]
    norm_num
  obtain ⟨r, e, f, d1, d2, p, _⟩ := C45_concentration [-arccos (1 / 4), arccos (1 / 4)]
    [-(2 * π / 3), 0, 2 * π / 3] sf (by simp) (by simp) hx1 triple_not_one
  obtain ⟨r', e', f', d1', d2', p', _⟩ := C45_concentration [-(2 * π / 3), 0, 2 * π / 3]
    [-arccos (1 / 4), arccos (1 / 4)] sf (by simp) (by simp) triple_not_one hx1
  have hf : r.fStat = 1 := by rw [f, rx, ry]; norm_num
  have hf' : r'.fStat = 1 := by rw [f', rx, ry]; norm_num
  refine ⟨r, r', e, e', ?_⟩
  rw [p hf.ge, p' hf'.ge, hf, hf', d1, d2, d1', d2']
  simp only [List.length_cons, List.length_nil]
  norm_num only
  intro h
  rcases lt_or_gt_of_ne hmed with hm | hm
  · rw [min_eq_left (by linarith), min_eq_right (by linarith)] at h; linarith
  · rw [min_eq_right (by linarith), min_eq_left (by linarith)] at h; linarith

end Verif.Props
