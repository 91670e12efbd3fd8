import Verif.Lemmas.Circle
import Mathlib.Analysis.Real.Pi.Bounds
import Mathlib.Data.List.Forall2

/-!
# Properties C01–C06: `pycircstat2/utils.py`
-/

namespace Verif.Props

open Real Spec

set_option autoImplicit false

/-! ## C01 — `angmod` is the unique normalisation -/

/-- With well-formed bounds `angmod` succeeds, and its result is characterised as *the* number of
`[lo, hi)` that differs from the input by a whole number of periods. -/
theorem C01_angmod_unique (x y lo hi : ℝ) (h : lo < hi) :
    angmod x [lo, hi] = .ok y ↔ lo ≤ y ∧ y < hi ∧ CongMod (hi - lo) y x := by
  rw [← angmodB_eq_iff h]
  simp [angmod, not_le.2 h]

/-- There is always such a result. -/
theorem C01_angmod_total (x lo hi : ℝ) (h : lo < hi) : ∃ y, angmod x [lo, hi] = .ok y :=
  ⟨angmodB lo hi x, by simp [angmod, not_le.2 h]⟩

/-- Normalising twice is normalising once. -/
theorem C01_angmod_idempotent (x y lo hi : ℝ) (h : angmod x [lo, hi] = .ok y) :
    angmod y [lo, hi] = .ok y := by
  by_cases hlt : lo < hi
  · have := (C01_angmod_unique x y lo hi hlt).1 h
    exact (C01_angmod_unique y y lo hi hlt).2 ⟨this.1, this.2.1, CongMod.refl _ _⟩
  · simp [angmod, not_lt.1 hlt] at h

/-- Adding whole periods to the input does not change the result (nor the error). -/
theorem C01_angmod_periodic (x lo hi : ℝ) (k : ℤ) :
    angmod (x + k * (hi - lo)) [lo, hi] = angmod x [lo, hi] := by
  by_cases hlt : lo < hi
  · obtain ⟨y, hy⟩ := C01_angmod_total x lo hi hlt
    rw [hy, C01_angmod_unique _ _ _ _ hlt]
    have := (C01_angmod_unique x y lo hi hlt).1 hy
    exact ⟨this.1, this.2.1, this.2.2.trans (CongMod.add_int _ _ k).symm⟩
  · simp [angmod, not_lt.1 hlt]

/-- `ValueError` is raised exactly for bounds that are not two increasing numbers, and no other
exception is raised. -/
theorem C01_angmod_error (x : ℝ) (bounds : List ℝ) (e : PyErr) :
    angmod x bounds = .error e ↔
      e = .valueError ∧ ¬ ∃ lo hi : ℝ, bounds = [lo, hi] ∧ lo < hi := by
  rcases bounds with _ | ⟨a, _ | ⟨b, _ | ⟨c, l⟩⟩⟩ <;> simp [angmod, @eq_comm _ PyErr.valueError]
  by_cases h : b ≤ a
  · simp [h, @eq_comm _ PyErr.valueError]
  · simp [h]

/-- 7.5 turns past the origin, bounds `[-π, π]`: the result is `-π`, not `π`. -/
example : angmod (15 * π) [-π, π] = .ok (-π) := by
  rw [C01_angmod_unique _ _ _ _ (by linarith [pi_pos])]
  exact ⟨le_refl _, by linarith [pi_pos], ⟨-8, by push_cast; ring⟩⟩

/-! ## C02 — `data2rad` and `rad2data` -/

theorem C02_rad2data_data2rad (x k : ℝ) (hk : k ≠ 0) : rad2data (data2rad x k) (some k) = x := by
  have := pi_ne_zero
  simp only [rad2data, data2rad]; field_simp

theorem C02_data2rad_rad2data (a k : ℝ) (hk : k ≠ 0) : data2rad (rad2data a (some k)) k = a := by
  have := pi_ne_zero
  simp only [rad2data, data2rad]; field_simp

theorem C02_rad2data_none (a : ℝ) : rad2data a none = a := rfl

/-- A full cycle is a full turn, and the conversion is additive. -/
theorem C02_data2rad_linear (x y k : ℝ) (hk : k ≠ 0) :
    data2rad k k = 2 * π ∧ data2rad (x + y) k = data2rad x k + data2rad y k := by
  constructor
  · simp only [data2rad]; field_simp
  · simp only [data2rad]; ring

/-- Data values denote the same direction exactly when they differ by whole cycles. -/
theorem C02_data2rad_sameDir_iff (x y k : ℝ) (hk : k ≠ 0) :
    SameDir (data2rad x k) (data2rad y k) ↔ CongMod k x y := by
  have hpi : (0:ℝ) < 2 * π := two_pi_pos'
  unfold data2rad
  constructor
  · rintro ⟨n, hn⟩
    refine ⟨n, ?_⟩
    field_simp at hn
    linarith
  · rintro ⟨n, hn⟩
    refine ⟨n, ?_⟩
    subst hn
    field_simp

example : data2rad 90 360 = π / 2 ∧ rad2data (π / 2) (some 24) = 6 := by
  constructor
  · simp only [data2rad]; ring
  · simp only [rad2data]; have := pi_ne_zero; field_simp; norm_num

/-! ## C03 — `rotate_data` -/

/-- For a known unit `rotate_data` succeeds and its output is, entry by entry, *the* number of
`[0, cycle)` congruent to `entry + angle` modulo the cycle. -/
theorem C03_rotateData_spec (alpha out : List ℝ) (angle cycle : ℝ) (unit : String)
    (hu : UnitCycle unit cycle) :
    rotateData alpha angle unit = .ok out ↔
      List.Forall₂ (fun a b => 0 ≤ b ∧ b < cycle ∧ CongMod cycle b (a + angle)) alpha out := by
  have hpos : 0 < cycle := by
    rcases hu with ⟨-, h⟩ | ⟨-, h⟩ | ⟨-, h⟩ <;> rw [h]
    · norm_num
    · exact two_pi_pos'
    · norm_num
  have hcyc : unitCycle unit = .ok cycle := by
    rcases hu with ⟨h, h'⟩ | ⟨h, h'⟩ | ⟨h, h'⟩ <;> simp [unitCycle, h, h']
  have hpi : (0:ℝ) < 2 * π := two_pi_pos'
  have key : ∀ a b : ℝ, rad2data (angmod2pi (data2rad a cycle + data2rad angle cycle)) (some cycle)
      = b ↔ 0 ≤ b ∧ b < cycle ∧ CongMod cycle b (a + angle) := by
    intro a b
    have e : rad2data (angmod2pi (data2rad a cycle + data2rad angle cycle)) (some cycle) = b ↔
        angmod2pi (data2rad a cycle + data2rad angle cycle) = data2rad b cycle := by
      constructor
      · intro h; rw [← h, C02_data2rad_rad2data _ _ hpos.ne']
      · intro h; rw [h, C02_rad2data_data2rad _ _ hpos.ne']
    rw [e, angmod2pi_eq_iff, ← (C02_data2rad_linear a angle cycle hpos.ne').2]
    rw [C02_data2rad_sameDir_iff _ _ _ hpos.ne']
    have h1 : 0 ≤ data2rad b cycle ↔ 0 ≤ b := by
      unfold data2rad
      rw [le_div_iff₀ hpos, zero_mul, mul_nonneg_iff_of_pos_left hpi]
    have h2 : data2rad b cycle < 2 * π ↔ b < cycle := by
      unfold data2rad
      rw [div_lt_iff₀ hpos, mul_lt_mul_iff_right₀ hpi]
    rw [h1, h2]
  have hr : rotateData alpha angle unit = .ok (alpha.map fun a =>
      rad2data (angmod2pi (data2rad a cycle + data2rad angle cycle)) (some cycle)) := by
    simp [rotateData, hcyc, bind, Except.bind, pure, Except.pure]
  rw [hr, Except.ok.injEq]
  induction alpha generalizing out with
  | nil => cases out <;> simp
  | cons a l ih =>
    cases out with
    | nil => simp
    | cons b m =>
      have := ih m (by simp [rotateData, hcyc, bind, Except.bind, pure, Except.pure])
      simp only [List.map_cons, List.cons.injEq, List.forall₂_cons, key, this]

/-- Rotating by `s` and then by `t` is rotating by `s + t`. -/
theorem C03_rotateData_compose (alpha mid : List ℝ) (s t : ℝ) (unit : String)
    (h : rotateData alpha s unit = .ok mid) :
    rotateData mid t unit = rotateData alpha (s + t) unit := by
  obtain ⟨cycle, hu⟩ : ∃ c, UnitCycle unit c := by
    unfold UnitCycle
    by_cases h1 : unit = "degree"
    · exact ⟨360, .inl ⟨h1, rfl⟩⟩
    by_cases h2 : unit = "radian"
    · exact ⟨2 * π, .inr (.inl ⟨h2, rfl⟩)⟩
    by_cases h3 : unit = "hour"
    · exact ⟨24, .inr (.inr ⟨h3, rfl⟩)⟩
    simp [rotateData, unitCycle, h1, h2, h3, bind, Except.bind] at h
  have hm := (C03_rotateData_spec alpha mid s cycle unit hu).1 h
  obtain ⟨out, hout⟩ : ∃ out, rotateData mid t unit = .ok out := by
    rcases hu with ⟨hu, -⟩ | ⟨hu, -⟩ | ⟨hu, -⟩ <;>
      simp [rotateData, unitCycle, hu, bind, Except.bind, pure, Except.pure]
  have ho := (C03_rotateData_spec mid out t cycle unit hu).1 hout
  rw [hout, eq_comm, C03_rotateData_spec alpha out (s + t) cycle unit hu]
  clear h hout
  induction hm generalizing out with
  | nil => cases ho; exact .nil
  | cons hab _ ih =>
    cases ho with
    | cons hbc hrest =>
      refine .cons ⟨hbc.1, hbc.2.1, ?_⟩ (ih _ hrest)
      have := hab.2.2.add_right t
      rw [add_assoc] at this
      exact hbc.2.2.trans this

/-- Rotating forth and back returns the original data, normalised to `[0, cycle)`. -/
theorem C03_rotateData_back (alpha mid : List ℝ) (s cycle : ℝ) (unit : String)
    (hu : UnitCycle unit cycle) (h : rotateData alpha s unit = .ok mid)
    (hin : ∀ a ∈ alpha, 0 ≤ a ∧ a < cycle) :
    rotateData mid (-s) unit = .ok alpha := by
  rw [C03_rotateData_compose alpha mid s (-s) unit h, add_neg_cancel,
    C03_rotateData_spec alpha alpha 0 cycle unit hu]
  rw [List.forall₂_same]
  intro a ha
  exact ⟨(hin a ha).1, (hin a ha).2, by simpa using CongMod.refl _ _⟩

/-- An unknown unit raises `ValueError`; a known one never raises. -/
theorem C03_rotateData_error (alpha : List ℝ) (s : ℝ) (unit : String) (e : PyErr) :
    rotateData alpha s unit = .error e ↔ e = .valueError ∧ ¬ ∃ c, UnitCycle unit c := by
  unfold UnitCycle rotateData unitCycle
  by_cases h1 : unit = "degree"
  · simp [h1, bind, Except.bind, pure, Except.pure]
  by_cases h2 : unit = "radian"
  · simp [h2, bind, Except.bind, pure, Except.pure]
  by_cases h3 : unit = "hour"
  · simp [h3, bind, Except.bind, pure, Except.pure]
  simp [h1, h2, h3, bind, Except.bind, @eq_comm _ PyErr.valueError]

/-- 23h rotated by 3 hours is 2h. -/
example : rotateData [23, 1] 3 "hour" = .ok [2, 4] := by
  rw [C03_rotateData_spec _ _ _ 24 _ (.inr (.inr ⟨rfl, rfl⟩))]
  refine .cons ⟨by norm_num, by norm_num, -1, by norm_num⟩
    (.cons ⟨by norm_num, by norm_num, 0, by norm_num⟩ .nil)

/-! ## C04 — `angular_distance` -/

/-- `angular_distance` is the arc-length distance: the least `|a - b + 2πk|`. -/
theorem C04_angularDistance_isArcDist (a b : ℝ) : IsArcDist (angularDistance a b) a b := by
  have h0 := angmod2pi_nonneg (a - b)
  have h1 := angmod2pi_lt (a - b)
  obtain ⟨k, hk⟩ := angmod2pi_cong (a - b)
  have hpi := pi_pos
  unfold angularDistance
  simp only
  set c := angmod2pi (a - b) with hc
  constructor
  · rcases le_total c (2 * π - c) with h | h
    · exact ⟨k, by rw [min_eq_left h, ← hk, abs_of_nonneg h0]⟩
    · refine ⟨k - 1, ?_⟩
      rw [min_eq_right h]
      have : a - b + ((k - 1 : ℤ) : ℝ) * (2 * π) = c - 2 * π := by
        rw [hk]; push_cast; ring
      rw [this, abs_of_nonpos (by linarith)]; ring
  · intro j
    have e : a - b + (j : ℝ) * (2 * π) = c + ((j - k : ℤ) : ℝ) * (2 * π) := by
      rw [hk]; push_cast; ring
    rw [e]
    rcases lt_or_ge (j - k) 0 with hj | hj
    · have : ((j - k : ℤ) : ℝ) ≤ -1 := by exact_mod_cast (by omega : j - k ≤ -1)
      refine le_trans (min_le_right _ _) ?_
      rw [abs_of_nonpos (by nlinarith)]
      nlinarith
    · have : (0 : ℝ) ≤ ((j - k : ℤ) : ℝ) := by exact_mod_cast hj
      refine le_trans (min_le_left _ _) (le_trans ?_ (le_abs_self _))
      nlinarith

theorem C04_angularDistance_range (a b : ℝ) :
    0 ≤ angularDistance a b ∧ angularDistance a b ≤ π := by
  have h0 := angmod2pi_nonneg (a - b)
  have h1 := angmod2pi_lt (a - b)
  unfold angularDistance
  simp only
  constructor
  · exact le_min h0 (by linarith)
  · rcases le_total (angmod2pi (a - b)) π with h | h
    · exact (min_le_left _ _).trans h
    · exact (min_le_right _ _).trans (by linarith)

theorem C04_angularDistance_symm (a b : ℝ) : angularDistance a b = angularDistance b a := by
  have key : ∀ a b, angularDistance a b ≤ angularDistance b a := by
    intro a b
    obtain ⟨k, hk⟩ := (C04_angularDistance_isArcDist b a).1
    have := (C04_angularDistance_isArcDist a b).2 (-k)
    rw [hk, ← abs_neg]
    refine this.trans (le_of_eq ?_)
    congr 1; push_cast; ring
  exact le_antisymm (key a b) (key b a)

theorem C04_angularDistance_eq_zero_iff (a b : ℝ) :
    angularDistance a b = 0 ↔ SameDir a b := by
  constructor
  · intro h
    obtain ⟨k, hk⟩ := (C04_angularDistance_isArcDist a b).1
    rw [h, eq_comm, abs_eq_zero] at hk
    exact ⟨-k, by push_cast; linarith⟩
  · rintro ⟨k, hk⟩
    have h1 := (C04_angularDistance_isArcDist a b).2 (-k)
    rw [hk] at h1
    have : b + (k:ℝ) * (2 * π) - b + ((-k : ℤ) : ℝ) * (2 * π) = 0 := by push_cast; ring
    rw [this, abs_zero] at h1
    rw [← hk] at h1
    exact le_antisymm h1 (C04_angularDistance_range a b).1

theorem C04_angularDistance_triangle (a b c : ℝ) :
    angularDistance a c ≤ angularDistance a b + angularDistance b c := by
  obtain ⟨k, hk⟩ := (C04_angularDistance_isArcDist a b).1
  obtain ⟨l, hl⟩ := (C04_angularDistance_isArcDist b c).1
  have := (C04_angularDistance_isArcDist a c).2 (k + l)
  rw [hk, hl]
  refine (this.trans (le_of_eq ?_)).trans (abs_add_le _ _)
  congr 1; push_cast; ring

/-- Whole turns in either argument are ignored. -/
theorem C04_angularDistance_congr (a a' b b' : ℝ) (ha : SameDir a a') (hb : SameDir b b') :
    angularDistance a b = angularDistance a' b' := by
  unfold angularDistance
  rw [angmod2pi_congr (ha.sub hb)]

theorem C04_cos_angularDistance (a b : ℝ) : cos (angularDistance a b) = cos (a - b) := by
  obtain ⟨k, hk⟩ := (C04_angularDistance_isArcDist a b).1
  rw [hk, cos_abs, cos_add_int_mul_two_pi]

/-- Directions 10° and 350° are 20° apart. -/
example : angularDistance (π / 18) (35 * π / 18) = π / 9 := by
  have h : angmod2pi (π / 18 - 35 * π / 18) = π / 9 :=
    angmod2pi_eq_iff.2 ⟨by positivity, by linarith [pi_pos], 1, by push_cast; ring⟩
  unfold angularDistance
  simp only [h]
  exact min_eq_left (by linarith [pi_pos])

/-! ## C05 — `significance_code` -/

/-- The code for each range of p values; the ranges cover ℝ, so this determines the function. -/
theorem C05_significanceCode_spec (p : ℝ) :
    (significanceCode p = "***" ↔ p < 1 / 1000) ∧
    (significanceCode p = "**" ↔ 1 / 1000 ≤ p ∧ p < 1 / 100) ∧
    (significanceCode p = "*" ↔ 1 / 100 ≤ p ∧ p < 1 / 20) ∧
    (significanceCode p = "." ↔ 1 / 20 ≤ p ∧ p < 1 / 10) ∧
    (significanceCode p = "" ↔ 1 / 10 ≤ p) := by
  unfold significanceCode
  have e1 : (0.001 : ℝ) = 1 / 1000 := by norm_num
  have e2 : (0.01 : ℝ) = 1 / 100 := by norm_num
  have e3 : (0.05 : ℝ) = 1 / 20 := by norm_num
  have e4 : (0.1 : ℝ) = 1 / 10 := by norm_num
  rw [e1, e2, e3, e4]
  refine ⟨?_, ?_, ?_, ?_, ?_⟩ <;> split_ifs <;>
    simp only [String.reduceEq, false_iff, true_iff, not_and, not_lt, not_le] <;>
    first
      | linarith
      | (constructor <;> linarith)
      | (intros; linarith)

/-- Number of stars, with "." between none and one. -/
def codeStrength (s : String) : ℕ :=
  if s = "***" then 4 else if s = "**" then 3 else if s = "*" then 2 else if s = "." then 1 else 0

/-- A larger p value never gets a stronger code. -/
theorem C05_significanceCode_antitone (p q : ℝ) (h : p ≤ q) :
    codeStrength (significanceCode q) ≤ codeStrength (significanceCode p) := by
  unfold significanceCode
  norm_num
  split_ifs <;> first | linarith | decide

example : significanceCode (1 / 20) = "." :=
  (C05_significanceCode_spec _).2.2.2.1.2 (by norm_num)

/-! ## C06 — `is_within_circular_range` -/

/-- The check is true exactly when `value` is met walking counter-clockwise from `lb` to `ub`. -/
theorem C06_isWithin_iff_onArc (v lb ub : ℝ) :
    isWithinCircularRange v lb ub = true ↔ OnArc v lb ub := by
  have hp := two_pi_pos'
  have v0 := pymod_nonneg hp v
  have v1 := pymod_lt hp v
  have l0 := pymod_nonneg hp lb
  have l1 := pymod_lt hp lb
  have u0 := pymod_nonneg hp ub
  have u1 := pymod_lt hp ub
  have cv := pymod_cong v (2 * π)
  have cl := pymod_cong lb (2 * π)
  have cu := pymod_cong ub (2 * π)
  unfold isWithinCircularRange
  simp only
  set v' := pymod v (2 * π)
  set l' := pymod lb (2 * π)
  set u' := pymod ub (2 * π)
  -- the arc only depends on the normalised angles
  have red : OnArc v lb ub ↔ OnArc v' l' u' := by
    constructor
    · rintro ⟨L, t, h1, h2, h3, h4, h5, h6⟩
      exact ⟨L, t, h1, h2, (cu.trans h3).trans (cl.symm.add_right L), h4, h5,
        (cv.trans h6).trans (cl.symm.add_right t)⟩
    · rintro ⟨L, t, h1, h2, h3, h4, h5, h6⟩
      exact ⟨L, t, h1, h2, (cu.symm.trans h3).trans (cl.add_right L), h4, h5,
        (cv.symm.trans h6).trans (cl.add_right t)⟩
  rw [red]
  -- the offset of an angle from `l'`
  have off : ∀ w t : ℝ, 0 ≤ w → w < 2 * π → 0 ≤ t → t < 2 * π → SameDir w (l' + t) →
      (l' ≤ w → t = w - l') ∧ (w < l' → t = w - l' + 2 * π) := by
    intro w t hw0 hw1 ht0 ht1 hc
    constructor
    · intro hlw
      refine (CongMod.eq_of_mem hp (lo := 0) ?_ ht0 (by linarith) (by linarith) (by linarith))
      have := hc.symm.add_right (-l')
      convert this using 1 <;> ring
    · intro hlw
      refine (CongMod.eq_of_mem hp (lo := 0) ?_ ht0 (by linarith) (by linarith) (by linarith))
      have := hc.symm.add_right (-l')
      refine CongMod.trans (b := w - l') ?_ ⟨-1, by push_cast; ring⟩
      convert this using 1 <;> ring
  constructor
  · intro h
    split_ifs at h with hlu
    · simp only [Bool.and_eq_true, decide_eq_true_eq] at h
      exact ⟨u' - l', v' - l', by linarith, by linarith, ⟨0, by simp⟩, by linarith, by linarith,
        ⟨0, by simp⟩⟩
    · push Not at hlu
      simp only [Bool.or_eq_true, decide_eq_true_eq] at h
      rcases h with h | h
      · exact ⟨u' - l' + 2 * π, v' - l', by linarith, by linarith, ⟨-1, by push_cast; ring⟩,
          by linarith, by linarith, ⟨0, by simp⟩⟩
      · exact ⟨u' - l' + 2 * π, v' - l' + 2 * π, by linarith, by linarith,
          ⟨-1, by push_cast; ring⟩, by linarith, by linarith, ⟨-1, by push_cast; ring⟩⟩
  · rintro ⟨L, t, h1, h2, h3, h4, h5, h6⟩
    have hU := off u' L u0 u1 h1 h2 h3
    have hV := off v' t v0 v1 h4 (by linarith) h6
    split_ifs with hlu
    · simp only [Bool.and_eq_true, decide_eq_true_eq]
      have := hU.1 hlu
      rcases le_or_gt l' v' with h | h
      · have := hV.1 h
        exact ⟨h, by linarith⟩
      · have := hV.2 h
        exfalso; linarith
    · push Not at hlu
      simp only [Bool.or_eq_true, decide_eq_true_eq]
      have := hU.2 hlu
      rcases le_or_gt l' v' with h | h
      · exact .inl h
      · have := hV.2 h
        exact .inr (by linarith)

/-- Adding whole turns to any of the three angles does not matter. -/
theorem C06_isWithin_congr (v v' lb lb' ub ub' : ℝ) (hv : SameDir v v') (hl : SameDir lb lb')
    (hu : SameDir ub ub') :
    isWithinCircularRange v lb ub = isWithinCircularRange v' lb' ub' := by
  unfold isWithinCircularRange
  rw [pymod_congr two_pi_pos' hv, pymod_congr two_pi_pos' hl, pymod_congr two_pi_pos' hu]

/-- Rotating the three angles together does not matter. -/
theorem C06_isWithin_rotate (v lb ub t : ℝ) :
    isWithinCircularRange (v + t) (lb + t) (ub + t) = isWithinCircularRange v lb ub := by
  rw [Bool.eq_iff_iff, C06_isWithin_iff_onArc, C06_isWithin_iff_onArc]
  constructor
  · rintro ⟨L, s, h1, h2, h3, h4, h5, h6⟩
    refine ⟨L, s, h1, h2, ?_, h4, h5, ?_⟩
    · have := h3.add_right (-t); convert this using 1 <;> ring
    · have := h6.add_right (-t); convert this using 1 <;> ring
  · rintro ⟨L, s, h1, h2, h3, h4, h5, h6⟩
    refine ⟨L, s, h1, h2, ?_, h4, h5, ?_⟩
    · have := h3.add_right t; convert this using 1; ring
    · have := h6.add_right t; convert this using 1; ring

/-- Every direction is on the arc from `lb` to `ub` or on the arc from `ub` to `lb`, when these are
different directions (for equal directions both arcs are a single point). -/
theorem C06_isWithin_or_swap (v lb ub : ℝ) (hne : ¬ SameDir lb ub) :
    isWithinCircularRange v lb ub = true ∨ isWithinCircularRange v ub lb = true := by
  have hne' : pymod lb (2 * π) ≠ pymod ub (2 * π) := by
    intro h
    exact hne (((pymod_cong lb _).symm.trans (h ▸ CongMod.refl _ _)).trans (pymod_cong ub _))
  unfold isWithinCircularRange
  simp only
  rcases lt_or_gt_of_ne hne' with h | h
  · rw [if_pos h.le, if_neg (not_le.2 h)]
    simp only [Bool.and_eq_true, Bool.or_eq_true, decide_eq_true_eq]
    rcases le_total (pymod lb (2 * π)) (pymod v (2 * π)) with h1 | h1
    · rcases le_total (pymod v (2 * π)) (pymod ub (2 * π)) with h2 | h2
      · exact .inl ⟨h1, h2⟩
      · exact .inr (.inl h2)
    · exact .inr (.inr h1)
  · rw [if_neg (not_le.2 h), if_pos h.le]
    simp only [Bool.and_eq_true, Bool.or_eq_true, decide_eq_true_eq]
    rcases le_total (pymod ub (2 * π)) (pymod v (2 * π)) with h1 | h1
    · rcases le_total (pymod v (2 * π)) (pymod lb (2 * π)) with h2 | h2
      · exact .inr ⟨h1, h2⟩
      · exact .inl (.inl h2)
    · exact .inl (.inr h1)

/-- The arc from 350° to 20° contains 5° and does not contain 180°. -/
example : isWithinCircularRange (5 * π / 180) (350 * π / 180) (20 * π / 180) = true ∧
    isWithinCircularRange π (350 * π / 180) (20 * π / 180) = false := by
  have hp := pi_pos
  have e : ∀ x : ℝ, 0 ≤ x → x < 2 * π → pymod x (2 * π) = x :=
    fun x h0 h1 => pymod_eq_self two_pi_pos' h0 h1
  unfold isWithinCircularRange
  rw [e (5 * π / 180) (by positivity) (by linarith), e (350 * π / 180) (by positivity) (by linarith),
    e (20 * π / 180) (by positivity) (by linarith), e π (by positivity) (by linarith)]
  constructor
  · rw [if_neg (by linarith)]
    simp only [Bool.or_eq_true, decide_eq_true_eq]; right; linarith
  · rw [if_neg (by linarith)]
    simp only [Bool.or_eq_false_iff, decide_eq_false_iff_not]; constructor <;> linarith

end Verif.Props
