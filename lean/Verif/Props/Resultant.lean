import Verif.Lemmas.Descriptive

/-!
# C07 - C12: resultant length and circular mean
-/

set_option autoImplicit false

namespace Verif.Props

open Verif Verif.Spec Real

/-! ## C07 -/

/-- `circ_r` is the length of the weighted average of the unit vectors; it is non-finite exactly
for total weight 0. -/
theorem C07_circR_is_mean_vector_length (alpha w : List ℝ) (r : ℝ) :
    (circR alpha w = some r ↔ w.sum ≠ 0 ∧
      r = ‖(List.zipWith (fun (a w : ℝ) => (w : ℂ) * Complex.exp (a * Complex.I)) alpha w).sum
        / (w.sum : ℂ)‖) ∧
    (circR alpha w = none ↔ w.sum = 0) := by
  have h : moment alpha w 1 = (List.zipWith (fun (a w : ℝ) => (w : ℂ) *
      Complex.exp (a * Complex.I)) alpha w).sum / (w.sum : ℂ) := by
    simp [moment, expSum]
  rw [circR_eq, ← h]
  by_cases h0 : w.sum = 0 <;> simp [h0, eq_comm]

/-- For non-negative weights with positive total the result is a number in `[0,1]`. -/
theorem C07_circR_range (alpha w : List ℝ) (hl : alpha.length = w.length)
    (hw : ∀ x ∈ w, 0 ≤ x) (hs : 0 < w.sum) :
    ∃ r, circR alpha w = some r ∧ 0 ≤ r ∧ r ≤ 1 :=
  ⟨_, by rw [circR_eq, if_neg hs.ne'], norm_nonneg _, norm_moment_le alpha w hw hl 1⟩

private lemma sum_one_sub_cos (alpha w : List ℝ) (hl : alpha.length = w.length) (m : ℝ) :
    (List.zipWith (fun a w => w * (1 - cos (a - m))) alpha w).sum
      = w.sum - (List.zipWith (fun a w => w * cos (((1 : ℤ) : ℝ) * (a - m))) alpha w).sum := by
  induction alpha generalizing w with
  | nil => cases w with
    | nil => simp
    | cons => simp at hl
  | cons a as ih =>
    cases w with
    | nil => simp at hl
    | cons v vs =>
      simp only [List.zipWith_cons_cons, List.sum_cons, ih vs (by simpa using hl)]
      push_cast; ring_nf

private lemma sameDir_of_cos_eq_one {x m : ℝ} (h : cos (x - m) = 1) : SameDir x m := by
  obtain ⟨k, hk⟩ := (cos_eq_one_iff _).1 h
  exact ⟨k, by linarith⟩

/-- It is 1 exactly when all angles with non-zero weight are one direction. -/
theorem C07_circR_eq_one_iff (alpha w : List ℝ) (hl : alpha.length = w.length)
    (hw : ∀ x ∈ w, 0 ≤ x) (hs : 0 < w.sum) :
    circR alpha w = some 1 ↔ ∃ m, ∀ x ∈ alpha.zip w, x.2 ≠ 0 → SameDir x.1 m := by
  rw [circR_eq, if_neg hs.ne', Option.some.injEq]
  constructor
  · intro h
    set m := Complex.arg (moment alpha w 1)
    refine ⟨m, ?_⟩
    have hz : moment alpha w 1 = Complex.exp ((m : ℝ) * Complex.I) := by
      have := Complex.norm_mul_exp_arg_mul_I (moment alpha w 1)
      rw [h] at this; simpa using this.symm
    have hE : expSum alpha w 1 = (w.sum : ℝ) * Complex.exp ((m : ℝ) * Complex.I) := by
      rw [← hz]; unfold moment
      rw [mul_div_cancel₀]; exact_mod_cast hs.ne'
    have h0 : (List.zipWith (fun a w => w * (1 - cos (a - m))) alpha w).sum = 0 := by
      rw [sum_one_sub_cos _ _ hl, zip_cos_sum, hE, mul_left_comm, ← Complex.exp_add]
      simp
    have h0' : ((alpha.zip w).map fun x => x.2 * (1 - cos (x.1 - m))).sum = 0 := by
      rw [← h0, ← List.map_uncurry_zip_eq_zipWith]; rfl
    intro x hx hx2
    have hnn : ∀ y ∈ (alpha.zip w).map (fun x => x.2 * (1 - cos (x.1 - m))), (0 : ℝ) ≤ y := by
      intro y hy
      obtain ⟨z, hz, rfl⟩ := List.mem_map.1 hy
      exact mul_nonneg (hw _ (List.of_mem_zip hz).2) (by linarith [cos_le_one (z.1 - m)])
    have := all_zero_of_sum_eq_zero hnn h0' _ (List.mem_map_of_mem hx)
    rcases mul_eq_zero.1 this with h | h
    · exact absurd h hx2
    · exact sameDir_of_cos_eq_one (by linarith)
  · rintro ⟨m, hm⟩
    have hE : expSum alpha w 1 = (w.sum : ℝ) * Complex.exp ((m : ℝ) * Complex.I) := by
      rw [expSum_zip, sum_zip _ _ hl]
      have : (alpha.zip w).map (fun x => (x.2 : ℂ) * Complex.exp ((((1 : ℤ) : ℝ) * x.1 : ℝ) * Complex.I))
          = (alpha.zip w).map (fun x => (x.2 : ℂ) * Complex.exp ((m : ℝ) * Complex.I)) := by
        apply List.map_congr_left
        intro x hx
        by_cases h2 : x.2 = 0
        · simp [h2]
        · congr 1
          have := exp_eq_of_sameDir (hm x hx h2) 1
          simpa using this
      rw [this, List.sum_map_mul_right]
      congr 1
      generalize alpha.zip w = l
      induction l with
      | nil => simp
      | cons x xs ih => simp [ih]
    unfold moment
    rw [hE, mul_div_assoc, mul_comm, div_mul_cancel₀, Complex.norm_exp_ofReal_mul_I]
    exact_mod_cast hs.ne'

/-- Two opposite directions have resultant 0, two equal ones (up to a turn) resultant 1. -/
example : circR [0, π] [1, 1] = some 0 ∧ circR [0, 2 * π] [1, 3] = some 1 := by
  constructor
  · rw [(C07_circR_is_mean_vector_length _ _ _).1]; simp
  · rw [C07_circR_eq_one_iff [0, 2 * π] [1, 3] rfl (by simp) (by norm_num)]
    refine ⟨0, ?_⟩
    simp only [List.zip_cons_cons, List.mem_cons]
    rintro x (rfl | rfl | h) _
    · exact CongMod.refl _ _
    · exact ⟨1, by simp⟩
    · simp at h

/-! ## C08 -/

/-- Rotation. -/
theorem C08_circR_rotate (alpha w : List ℝ) (t : ℝ) :
    circR (alpha.map (· + t)) w = circR alpha w := by
  rw [circR_eq, circR_eq, moment_rotate, norm_mul, Complex.norm_exp_ofReal_mul_I, one_mul]

/-- Reflection. -/
theorem C08_circR_reflect (alpha w : List ℝ) :
    circR (alpha.map (fun a => -a)) w = circR alpha w := by
  rw [circR_eq, circR_eq, moment_reflect, RCLike.norm_conj]

/-- Whole turns added to individual observations. -/
theorem C08_circR_turns (alpha beta w : List ℝ) (h : List.Forall₂ SameDir alpha beta) :
    circR alpha w = circR beta w := by
  rw [circR_eq, circR_eq, moment_congr h]

/-- Reordering observations together with their weights. -/
theorem C08_circR_perm (alpha w beta v : List ℝ) (h1 : alpha.length = w.length)
    (h2 : beta.length = v.length) (hp : (alpha.zip w).Perm (beta.zip v)) :
    circR alpha w = circR beta v := by
  rw [circR_eq, circR_eq, (moment_perm h1 h2 hp 1).1, (moment_perm h1 h2 hp 1).2]

/-- Multiplying all weights by a non-zero constant. -/
theorem C08_circR_scale (alpha w : List ℝ) (c : ℝ) (hc : c ≠ 0) :
    circR alpha (w.map (c * ·)) = circR alpha w := by
  rw [circR_eq, circR_eq, moment_scale _ _ _ hc, sum_scale]
  simp [hc]

example : List.Forall₂ SameDir [2 * π + 1, 3] [1, 3 - 2 * π] ∧
    (([1, 2] : List ℝ).zip ([5, 6] : List ℝ)).Perm (([2, 1] : List ℝ).zip [6, 5]) := by
  constructor
  · refine .cons ⟨1, by push_cast; ring⟩ (.cons ⟨1, by push_cast; ring⟩ .nil)
  · exact List.Perm.swap _ _ _

/-! ## C09 -/

/-- `circ_r` with natural-number weights is the unweighted `circ_r` of the expanded sample. -/
theorem C09_circR_expand (alpha : List ℝ) (ks : List ℕ) (h : alpha.length = ks.length) :
    circR alpha (ks.map fun k : ℕ => (k : ℝ)) = circR (expand alpha ks) (ones (expand alpha ks)) := by
  rw [circR_eq, circR_eq, moment_expand _ _ h, sum_expand _ _ h]

/-- Likewise `circ_mean` and `circ_mean_and_r`. -/
theorem C09_circMean_expand (alpha : List ℝ) (ks : List ℕ) (h : alpha.length = ks.length) :
    circMean alpha (ks.map fun k : ℕ => (k : ℝ)) = circMean (expand alpha ks) (ones (expand alpha ks)) ∧
    circMeanAndR alpha (ks.map fun k : ℕ => (k : ℝ))
      = circMeanAndR (expand alpha ks) (ones (expand alpha ks)) := by
  rw [circMean_eq, circMean_eq, circMeanAndR_eq, circMeanAndR_eq, moment_expand _ _ h,
    sum_expand _ _ h]
  exact ⟨rfl, rfl⟩

/-- Likewise `circ_moment`, raw, about a given angle, and centred. -/
theorem C09_circMoment_expand (alpha : List ℝ) (ks : List ℕ) (h : alpha.length = ks.length)
    (p : ℤ) (mean : Option ℝ) (centered : Bool) :
    circMoment alpha (ks.map fun k : ℕ => (k : ℝ)) p mean centered
      = circMoment (expand alpha ks) (ones (expand alpha ks)) p mean centered := by
  have hs : ∀ (m : ℝ) (c : Bool), circMoment alpha (ks.map fun k : ℕ => (k : ℝ)) p (some m) c
      = circMoment (expand alpha ks) (ones (expand alpha ks)) p (some m) c := by
    intro m c
    rw [circMoment_some, circMoment_some, moment_expand _ _ h, sum_expand _ _ h]
  cases mean with
  | some m => exact hs m _
  | none =>
    cases centered with
    | false => rw [circMoment_raw, circMoment_raw, moment_expand _ _ h, sum_expand _ _ h]
    | true =>
      rw [circMoment_centered, circMoment_centered, (C09_circMean_expand _ _ h).1]
      simp only [hs]

example : expand [(10 : ℝ), 20, 30] [2, 0, 1] = [10, 10, 30] := by simp [expand]

/-! ## C10 -/

/-- `circ_mean` is `nan` exactly when the resultant length is at most `1e-8` (or total weight 0). -/
theorem C10_circMean_nan_iff (alpha w : List ℝ) :
    circMean alpha w = none ↔
      circR alpha w = none ∨ ∃ r, circR alpha w = some r ∧ r ≤ 1 / 10 ^ 8 := by
  rw [circMean_eq, circR_eq]
  by_cases h : w.sum = 0 <;> simp [h]

/-- `circ_mean_and_r` always returns the resultant length of `circ_r`, and its mean is `nan`
exactly when that is at most `1e-12`. -/
theorem C10_circMeanAndR_nan_iff (alpha w : List ℝ) :
    (circMeanAndR alpha w).map Prod.snd = circR alpha w ∧
    ∀ m r, circMeanAndR alpha w = some (m, r) → (m = none ↔ r ≤ 1 / 10 ^ 12) := by
  rw [circMeanAndR_eq, circR_eq]
  by_cases h : w.sum = 0
  · simp [h]
  · simp only [h, if_false, Option.map_some, true_and, Option.some.injEq, Prod.mk.injEq]
    rintro m r ⟨rfl, rfl⟩
    simp

/-- When it is not `nan` it is in `[0,2π)` and is the direction of the average unit vector. -/
theorem C10_circMean_polar (alpha w : List ℝ) (m : ℝ) (h : circMean alpha w = some m) :
    0 ≤ m ∧ m < 2 * π ∧ ∃ r, circR alpha w = some r ∧ 0 < r ∧
      (List.zipWith (fun (a w : ℝ) => (w : ℂ) * Complex.exp (a * Complex.I)) alpha w).sum
        / (w.sum : ℂ) = (r : ℂ) * Complex.exp ((m : ℝ) * Complex.I) := by
  rw [circMean_eq] at h
  split_ifs at h with hc
  push Not at hc
  cases h
  refine ⟨angmod2pi_nonneg _, angmod2pi_lt _, ‖moment alpha w 1‖, ?_, lt_trans (by norm_num) hc.2, ?_⟩
  · rw [circR_eq, if_neg hc.1]
  · have := polar_angmod (moment alpha w 1)
    rw [← this]
    simp [moment, expSum]

/-- `circ_mean` and `circ_mean_and_r` agree on the mean when both define it, and whenever
`circ_mean` defines it, so does `circ_mean_and_r`. -/
theorem C10_circMean_eq_circMeanAndR (alpha w : List ℝ) (m : ℝ) (h : circMean alpha w = some m) :
    ∃ r, circMeanAndR alpha w = some (some m, r) := by
  rw [circMean_eq] at h
  split_ifs at h with hc
  push Not at hc
  cases h
  rw [circMeanAndR_eq, if_neg hc.1, if_neg (not_le.2 (lt_trans (by norm_num) hc.2))]
  exact ⟨_, rfl⟩

private lemma circMean_transform {alpha w beta : List ℝ} {f : ℝ → ℝ}
    (hn : ‖moment beta w 1‖ = ‖moment alpha w 1‖)
    (hd : ∀ m : ℝ, moment alpha w 1 = (‖moment alpha w 1‖ : ℂ) * Complex.exp (m * Complex.I) →
      moment beta w 1 = (‖moment alpha w 1‖ : ℂ) * Complex.exp ((f m : ℝ) * Complex.I)) :
    (circMean alpha w = none → circMean beta w = none) ∧
    ∀ m, circMean alpha w = some m → ∃ m', circMean beta w = some m' ∧
      0 ≤ m' ∧ m' < 2 * π ∧ SameDir m' (f m) := by
  constructor
  · intro h
    rw [circMean_eq] at h ⊢
    rw [hn]
    simpa using h
  · intro m h
    rw [circMean_eq] at h
    split_ifs at h with hc
    cases h
    refine ⟨angmod2pi (Complex.arg (moment beta w 1)), ?_, angmod2pi_nonneg _, angmod2pi_lt _, ?_⟩
    · rw [circMean_eq, hn, if_neg hc]
    · push Not at hc
      refine (angmod2pi_cong _).trans ?_
      exact arg_sameDir_of_polar (lt_trans (by norm_num) hc.2) (hd _ (polar_angmod _))

/-- Rotating the sample rotates the mean by the same amount modulo `2π`. -/
theorem C10_circMean_rotate (alpha w : List ℝ) (t : ℝ) :
    (circMean alpha w = none → circMean (alpha.map (· + t)) w = none) ∧
    ∀ m, circMean alpha w = some m → ∃ m', circMean (alpha.map (· + t)) w = some m' ∧
      0 ≤ m' ∧ m' < 2 * π ∧ SameDir m' (m + t) := by
  apply circMean_transform (f := (· + t))
  · rw [moment_rotate, norm_mul, Complex.norm_exp_ofReal_mul_I, one_mul]
  · intro m hm
    rw [moment_rotate]
    conv_lhs => rw [hm]
    rw [mul_left_comm, ← Complex.exp_add]
    congr 2
    push_cast; ring

/-- Reflecting the sample negates the mean modulo `2π`. -/
theorem C10_circMean_reflect (alpha w : List ℝ) :
    (circMean alpha w = none → circMean (alpha.map (fun a => -a)) w = none) ∧
    ∀ m, circMean alpha w = some m → ∃ m', circMean (alpha.map (fun a => -a)) w = some m' ∧
      0 ≤ m' ∧ m' < 2 * π ∧ SameDir m' (-m) := by
  apply circMean_transform (f := fun m => -m)
  · rw [moment_reflect, RCLike.norm_conj]
  · intro m hm
    rw [moment_reflect]
    conv_lhs => rw [hm]
    rw [map_mul, Complex.conj_ofReal, ← Complex.exp_conj, map_mul, Complex.conj_ofReal,
      Complex.conj_I]
    congr 2
    push_cast; ring

/-- Whole turns, reordering and rescaling of weights leave the mean unchanged. -/
theorem C10_circMean_invariant (alpha w : List ℝ) :
    (∀ beta, List.Forall₂ SameDir alpha beta → circMean beta w = circMean alpha w) ∧
    (∀ beta v, alpha.length = w.length → beta.length = v.length →
      (alpha.zip w).Perm (beta.zip v) → circMean beta v = circMean alpha w) ∧
    (∀ c : ℝ, c ≠ 0 → circMean alpha (w.map (c * ·)) = circMean alpha w) := by
  refine ⟨?_, ?_, ?_⟩
  · intro beta h
    rw [circMean_eq, circMean_eq, moment_congr h]
  · intro beta v h1 h2 hp
    rw [circMean_eq, circMean_eq, (moment_perm h1 h2 hp 1).1, (moment_perm h1 h2 hp 1).2]
  · intro c hc
    rw [circMean_eq, circMean_eq, moment_scale _ _ _ hc, sum_scale]
    simp [hc]

/-- A sample whose mean is defined: `{π/2}` has mean `π/2`; and one where it is not: `{0, π}`. -/
example : circMean [π / 2] [1] = some (π / 2) ∧ circMean [0, π] [1, 1] = none := by
  constructor
  · have hm : moment [π / 2] [1] 1 = Complex.exp ((π / 2 : ℝ) * Complex.I) := by
      simp [moment, expSum]
    have hn : ‖moment [π / 2] [1] 1‖ = 1 := by rw [hm, Complex.norm_exp_ofReal_mul_I]
    rw [circMean_eq, if_neg (by rw [hn]; norm_num)]
    congr 1
    rw [angmod2pi_eq_iff]
    refine ⟨by positivity, by linarith [pi_pos], ?_⟩
    exact (arg_sameDir_of_polar one_pos (by simpa using hm)).symm
  · rw [C10_circMean_nan_iff]
    right
    refine ⟨0, ?_, by norm_num⟩
    rw [(C07_circR_is_mean_vector_length _ _ _).1]; simp

/-! ## C11 -/

/-- The mean maximises `Σ w cos(α - θ)`; the maximum is total weight times resultant length, and
a maximiser is the mean up to whole turns. -/
theorem C11_circMean_maximises (alpha w : List ℝ) (hs : 0 < w.sum) (m : ℝ)
    (h : circMean alpha w = some m) :
    (∃ r, circR alpha w = some r ∧
      (List.zipWith (fun a w => w * cos (a - m)) alpha w).sum = w.sum * r) ∧
    ∀ θ, (List.zipWith (fun a w => w * cos (a - θ)) alpha w).sum
        ≤ (List.zipWith (fun a w => w * cos (a - m)) alpha w).sum ∧
      ((List.zipWith (fun a w => w * cos (a - θ)) alpha w).sum
        = (List.zipWith (fun a w => w * cos (a - m)) alpha w).sum → SameDir θ m) := by
  rw [circMean_eq] at h
  split_ifs at h with hc
  push Not at hc
  have hr : 0 < ‖moment alpha w 1‖ := lt_trans (by norm_num) hc.2
  set r := ‖moment alpha w 1‖ with hrdef
  have hE : expSum alpha w 1 = (w.sum : ℝ) * ((r : ℂ) * Complex.exp ((m : ℝ) * Complex.I)) := by
    cases h
    rw [← polar_angmod]; unfold moment
    rw [mul_div_cancel₀]; exact_mod_cast hs.ne'
  have key : ∀ θ, (List.zipWith (fun a w => w * cos (a - θ)) alpha w).sum
      = w.sum * r * cos (m - θ) := by
    intro θ
    have := zip_cos_sum alpha w 1 θ
    simp only [Int.cast_one, one_mul] at this
    rw [this, hE]
    have e : Complex.exp (((-θ : ℝ) : ℂ) * Complex.I) * ((w.sum : ℝ) * ((r : ℂ) *
        Complex.exp ((m : ℝ) * Complex.I)))
        = ((w.sum * r : ℝ) : ℂ) * Complex.exp (((m - θ : ℝ) : ℂ) * Complex.I) := by
      rw [show (((m - θ : ℝ) : ℂ) * Complex.I) = ((-θ : ℝ) : ℂ) * Complex.I + (m : ℝ) * Complex.I by
        push_cast; ring, Complex.exp_add]
      push_cast; ring
    rw [e, Complex.re_ofReal_mul, exp_re]
  have hp : 0 < w.sum * r := mul_pos hs hr
  refine ⟨⟨r, by rw [circR_eq, if_neg hs.ne'], by rw [key]; simp⟩, fun θ => ?_⟩
  rw [key, key]
  simp only [sub_self, cos_zero, mul_one]
  constructor
  · exact mul_le_of_le_one_right hp.le (cos_le_one _)
  · intro he
    have : cos (m - θ) = 1 := by
      have := mul_left_cancel₀ hp.ne' (he.trans (mul_one _).symm); exact this
    exact (sameDir_of_cos_eq_one this).symm

/-! ## C12 -/

private lemma pooled (n : ℕ) (groups : List (List ℝ)) (mrs : List (ℝ × ℝ))
    (hn : ∀ g ∈ groups, g.length = n) (hpos : 0 < n)
    (h : List.Forall₂ (fun g mr => circMeanAndR g (ones g) = some (some mr.1, mr.2)) groups mrs) :
    expSum groups.flatten (ones groups.flatten) 1
      = (n : ℂ) * ((List.zipWith (fun m r => cos m * r) (mrs.map Prod.fst) (mrs.map Prod.snd)).sum
        + (List.zipWith (fun m r => sin m * r) (mrs.map Prod.fst) (mrs.map Prod.snd)).sum * Complex.I)
      ∧ groups.flatten.length = n * mrs.length := by
  induction h with
  | nil => simp [expSum]
  | @cons g mr gs mrs hg _ ih =>
    obtain ⟨ih1, ih2⟩ := ih (fun g hg => hn g (by simp [hg]))
    have hgl := hn g (by simp)
    have hgs : (ones g).sum = (n : ℝ) := by rw [sum_ones, hgl]
    have hn0 : (n : ℝ) ≠ 0 := by exact_mod_cast hpos.ne'
    have hE : expSum g (ones g) 1 = (n : ℂ) * ((cos mr.1 * mr.2 : ℝ) + (sin mr.1 * mr.2 : ℝ) * Complex.I) := by
      rw [circMeanAndR_eq, hgs, if_neg hn0] at hg
      simp only [Option.some.injEq, Prod.mk.injEq] at hg
      obtain ⟨hm, hr⟩ := hg
      split_ifs at hm
      simp only [Option.some.injEq] at hm
      have := polar_angmod (moment g (ones g) 1)
      rw [hr, hm] at this
      have h2 : expSum g (ones g) 1 = (n : ℂ) * moment g (ones g) 1 := by
        unfold moment; rw [hgs, Complex.ofReal_natCast, mul_div_cancel₀]; exact_mod_cast hpos.ne'
      rw [h2, this, Complex.exp_mul_I]
      push_cast; ring
    constructor
    · rw [List.flatten_cons, ones_append, expSum_append _ _ _ _ (length_ones _).symm, ih1, hE]
      simp only [List.map_cons, List.zipWith_cons_cons, List.sum_cons]
      push_cast; ring
    · rw [List.flatten_cons, List.length_append, ih2, hgl]
      simp only [List.length_cons]; ring

/-- Combining the means and resultant lengths of equally sized groups gives the mean and resultant
length of the pooled sample (the mean being `nan` together with the pooled one). -/
theorem C12_mean_of_means (n : ℕ) (hpos : 0 < n) (groups : List (List ℝ)) (mrs : List (ℝ × ℝ))
    (hne : groups ≠ []) (hn : ∀ g ∈ groups, g.length = n)
    (h : List.Forall₂ (fun g mr => circMeanAndR g (ones g) = some (some mr.1, mr.2)) groups mrs) :
    ∃ res, circMeanAndROfMeans (mrs.map Prod.fst) (mrs.map Prod.snd) = .ok res ∧
      circMeanAndR groups.flatten (ones groups.flatten) = some res := by
  obtain ⟨hE, hlen⟩ := pooled n groups mrs hn hpos h
  have hk : 0 < mrs.length := by
    rw [← h.length_eq]; exact List.length_pos_of_ne_nil hne
  set X := (List.zipWith (fun m r => cos m * r) (mrs.map Prod.fst) (mrs.map Prod.snd)).sum with hX
  set Y := (List.zipWith (fun m r => sin m * r) (mrs.map Prod.fst) (mrs.map Prod.snd)).sum with hY
  have hsum : (ones groups.flatten).sum = (n : ℝ) * mrs.length := by
    rw [sum_ones, hlen]; push_cast; ring
  have hn0 : (n : ℝ) ≠ 0 := by exact_mod_cast hpos.ne'
  have hk0 : (mrs.length : ℝ) ≠ 0 := by exact_mod_cast hk.ne'
  have hmom : moment groups.flatten (ones groups.flatten) 1
      = ⟨X / mrs.length, Y / mrs.length⟩ := by
    unfold moment
    rw [hsum, hE]
    have hn0' : (n : ℂ) ≠ 0 := by exact_mod_cast hn0
    have hk0' : (mrs.length : ℂ) ≠ 0 := by exact_mod_cast hk0
    push_cast
    rw [mul_div_mul_left _ _ hn0']
    apply Complex.ext
    · rw [← Complex.ofReal_natCast, Complex.div_ofReal_re]; simp
    · rw [← Complex.ofReal_natCast, Complex.div_ofReal_im]; simp
  unfold circMeanAndROfMeans
  rw [if_neg (by simp; exact List.length_pos_iff.1 hk)]
  rw [circMeanAndR_eq, hsum, if_neg (mul_ne_zero hn0 hk0), hmom]
  simp only [List.length_map, ← hX, ← hY]
  have hr : sqrt ((X / mrs.length) ^ 2 + (Y / mrs.length) ^ 2)
      = ‖(⟨X / mrs.length, Y / mrs.length⟩ : ℂ)‖ := circRofCS_eq ⟨_, _⟩
  rw [hr]
  simp only [isclose_zero _ _ _ (norm_nonneg _)]
  refine ⟨_, ?_, rfl⟩
  split_ifs <;> rfl

/-- The hypotheses are met, e.g. by two groups of one angle. -/
example : ∃ m1 m2 : ℝ, List.Forall₂
    (fun g mr => circMeanAndR g (ones g) = some (some mr.1, mr.2)) [[1], [2]] [(m1, 1), (m2, 1)] := by
  have hm : ∀ x : ℝ, ‖moment [x] [1] 1‖ = 1 := by
    intro x; simp [moment, expSum, Complex.norm_exp_ofReal_mul_I]
  have : ∀ x : ℝ, circMeanAndR [x] (ones [x])
      = some (some (angmod2pi (Complex.arg (moment [x] [1] 1))), 1) := by
    intro x
    rw [circMeanAndR_eq]
    simp only [ones, List.map_cons, List.map_nil, hm]
    norm_num
  exact ⟨_, _, .cons (this 1) (.cons (this 2) .nil)⟩

end Verif.Props
