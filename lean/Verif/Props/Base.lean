import Verif.Lemmas.Base
import Verif.Props.Hdi
import Verif.Props.MeanCi
import Mathlib.Analysis.Complex.ExponentialBounds

/-!
# C65, C96, C97, C98: construction of `Circular` objects
-/

set_option autoImplicit false

namespace Verif.Props

open Verif Verif.Spec Real

/-- The full cycle of an object is that of its unit, unless one was given. -/
theorem C65_full_cycle (data : List ℝ) (w edges : Option (List ℝ)) (unit : String) (fc rot : Option ℝ)
    (kw : Option (Option String)) (opts : MedianOpts) (e : Env) (c : CircularObj)
    (h : circular data w edges unit fc rot kw opts e = .ok c) :
    fc = some c.fullCycle ∨ fc = none ∧ UnitCycle unit c.fullCycle := by
  obtain ⟨k, _, _, hk, -, -, hc⟩ := circular_ok h
  rw [hc.fullCycle]
  cases fc with
  | some k' => simp only [fullCycleOf, Except.ok.injEq] at hk; left; rw [hk]
  | none =>
    right
    refine ⟨rfl, ?_⟩
    simp only [fullCycleOf] at hk
    split_ifs at hk with h1 h2 h3
    · exact Or.inl ⟨h1, by simpa using hk.symm⟩
    · exact Or.inr (Or.inl ⟨h2, by simpa using hk.symm⟩)
    · exact Or.inr (Or.inr ⟨h3, by simpa using hk.symm⟩)

/-- Any other unit without a full cycle is refused with `ValueError`, whatever the rest. -/
theorem C65_unknown_unit (data : List ℝ) (w edges : Option (List ℝ)) (unit : String) (rot : Option ℝ)
    (kw : Option (Option String)) (opts : MedianOpts) (e : Env) (h : ∀ k, ¬ UnitCycle unit k) :
    circular data w edges unit none rot kw opts e = .error .valueError := by
  have h1 : unit ≠ "degree" := fun hh => h 360 (Or.inl ⟨hh, rfl⟩)
  have h2 : unit ≠ "radian" := fun hh => h (2 * π) (Or.inr (Or.inl ⟨hh, rfl⟩))
  have h3 : unit ≠ "hour" := fun hh => h 24 (Or.inr (Or.inr ⟨hh, rfl⟩))
  simp [circular, fullCycleOf, h1, h2, h3, Except.bind]

/-- Without `kwargs_mean_ci` the method of the interval of the mean is bootstrap exactly for `p < 0.05` and
`8 ≤ n < 25`, dispersion exactly for `p < 0.05` and `n ≥ 25`, and none otherwise. -/
theorem C65_method_table (data : List ℝ) (w edges : Option (List ℝ)) (unit : String) (fc rot : Option ℝ)
    (opts : MedianOpts) (e : Env) (c : CircularObj)
    (h : circular data w edges unit fc rot none opts e = .ok c) :
    (c.meanCiMethod = some "bootstrap" ↔ c.pval < 0.05 ∧ 8 ≤ c.n ∧ c.n < 25) ∧
    (c.meanCiMethod = some "dispersion" ↔ c.pval < 0.05 ∧ 25 ≤ c.n) ∧
    (c.meanCiMethod = none ↔ ¬ (c.pval < 0.05 ∧ 8 ≤ c.n)) := by
  obtain ⟨_, _, _, -, -, -, hc⟩ := circular_ok h
  rw [hc.method]
  unfold meanCiMethod
  simp only
  split_ifs with h1 h2
  · refine ⟨by simp [h1], ?_, by simp [h1]⟩
    simp only [Option.some.injEq, String.reduceEq, false_iff]
    intro h; omega
  · refine ⟨?_, by simp [h2], ?_⟩
    · simp only [Option.some.injEq, String.reduceEq, false_iff]; intro h; omega
    · simp only [reduceCtorEq, false_iff, not_not]; exact ⟨h2.1, by omega⟩
  · refine ⟨⟨fun h => by simp at h, fun h => absurd h h1⟩, ⟨fun h => by simp at h, fun h => absurd h h2⟩, ?_⟩
    simp only [true_iff]
    intro h
    by_cases h3 : c.n < 25
    · exact h1 ⟨h.1, h.2, h3⟩
    · exact h2 ⟨h.1, by omega⟩

/-- No interval of the mean is reported when `p ≥ 0.05`, even when the caller names a method. -/
theorem C65_no_interval (data : List ℝ) (w edges : Option (List ℝ)) (unit : String) (fc rot : Option ℝ)
    (kw : Option (Option String)) (opts : MedianOpts) (e : Env) (c : CircularObj)
    (h : circular data w edges unit fc rot kw opts e = .ok c) (hp : 0.05 ≤ c.pval) : c.meanCi = none := by
  obtain ⟨_, _, _, -, -, -, hc⟩ := circular_ok h
  have := hc.meanCi
  unfold circularMeanCi at this
  split at this
  · simpa using this.symm
  · rw [if_neg (not_lt.2 hp)] at this; simpa using this.symm

/-- The attributes of an object describe one and the same weighted sample: `n` is its truncated total weight, `r` and
the mean are the polar form of its first moment (no mean iff `r ≤ 1e-12`), `R = n r` and the p value is
that of the Rayleigh test. -/
theorem C65_attributes (data : List ℝ) (w edges : Option (List ℝ)) (unit : String) (fc rot : Option ℝ)
    (kw : Option (Option String)) (opts : MedianOpts) (e : Env) (c : CircularObj)
    (h : circular data w edges unit fc rot kw opts e = .ok c) :
    1 ≤ c.n ∧ (c.n : ℝ) ≤ c.w.sum ∧ c.w.sum < c.n + 1 ∧
    c.r = ‖moment c.alpha c.w 1‖ ∧ c.r ≤ 1 ∧ c.R = c.n * c.r ∧
    (c.mean = none ↔ c.r ≤ 1 / 10 ^ 12) ∧
    (∀ m, c.mean = some m → 0 ≤ m ∧ m < 2 * π ∧ moment c.alpha c.w 1 = c.r * Complex.exp (m * Complex.I)) ∧
    c.pval = exp (sqrt (1 + 4 * c.n + 4 * ((c.n : ℝ) ^ 2 - c.R ^ 2)) - (1 + 2 * c.n)) := by
  obtain ⟨_, _, p, -, -, -, hc⟩ := circular_ok h
  have hn := hc.n_pos
  have hn' := hc.n
  have h0 : 0 ≤ p.w.sum := by
    by_contra h0
    rw [hn', pyInt, if_neg h0] at hn
    have := Int.ceil_lt_add_one p.w.sum
    have : (1 : ℝ) ≤ ⌈p.w.sum⌉ := by exact_mod_cast hn
    linarith
  rw [pyInt, if_pos h0] at hn'
  refine ⟨by omega, ?_, ?_, by rw [hc.r, hc.alpha, hc.w], hc.r_le, hc.R, ?_, ?_, by rw [hc.R]; exact hc.pval⟩
  · rw [hn', hc.w]; exact Int.floor_le _
  · rw [hn', hc.w]; exact Int.lt_floor_add_one _
  · rw [hc.mean, hc.r]; split_ifs with h1
    · exact ⟨fun _ => h1, fun _ => rfl⟩
    · exact ⟨fun h => by simp at h, fun h => absurd h h1⟩
  · intro m hm
    rw [hc.mean] at hm
    split_ifs at hm with h1
    simp only [Option.some.injEq] at hm
    refine ⟨by rw [← hm]; exact angmod2pi_nonneg _, by rw [← hm]; exact angmod2pi_lt _, ?_⟩
    rw [hc.alpha, hc.w, hc.r, ← hm]
    exact polar_angmod _

/-- Plain observations (neither frequencies nor bins): the angles are the data in radians, `n` is their number, and the
two standard deviations are `√(2(1-r))` and, for `r > 0`, `√(-2 ln r)`. -/
theorem C65_ungrouped (data : List ℝ) (unit : String) (fc : Option ℝ)
    (kw : Option (Option String)) (opts : MedianOpts) (e : Env) (c : CircularObj)
    (h : circular data none none unit fc none kw opts e = .ok c) :
    c.alpha = data.map (fun x => 2 * π * x / c.fullCycle) ∧ c.n = data.length ∧ c.w = data.map (fun _ => 1) ∧
    c.grouped = false ∧ c.s = some (sqrt (2 * (1 - c.r))) ∧
    (0 < c.r → c.s0 = some (sqrt (-2 * log c.r))) := by
  obtain ⟨k, alpha, p, -, ha, hp, hc⟩ := circular_ok h
  simp only [circularAlpha, Except.ok.injEq] at ha
  simp only [prepare, Except.ok.injEq] at hp
  subst ha hp
  have hs := hc.s
  have hs0 := hc.s0
  refine ⟨by rw [hc.alpha, hc.fullCycle]; rfl, ?_, ?_, hc.grouped, ?_, ?_⟩
  · rw [hc.n]
    have : (ones (data.map fun x => data2rad x k)).sum = data.length := by
      simp [ones, Function.comp_def, List.map_const']
    simp only [this, pyInt, Nat.cast_nonneg, if_true, Int.floor_natCast]
  · rw [hc.w]; simp [ones, Function.comp_def]
  · simp only [angularStd, angularVar, C15_bin_zero, bind, Except.bind, pure, Except.pure,
      Option.bind, Option.map, pysqrt] at hs
    rw [if_neg (by have := hc.r_le; linarith)] at hs
    simpa using hs.symm
  · intro hr
    have hl := log_nonpos hr.le hc.r_le
    simp only [circStd, C15_bin_zero, bind, Except.bind, pure, Except.pure,
      Option.bind, pysqrt, pylog, sub_sub_cancel] at hs0
    rw [if_neg (not_le.2 hr)] at hs0
    simp only at hs0
    rw [if_neg (by linarith)] at hs0
    simpa using hs0.symm

/-! ## binning -/

/-- Binned data: the sample size is the number of angles between the first and the last edge. Angles outside are silently
dropped. -/
theorem C96_binned_size (data : List ℝ) (w : Option (List ℝ)) (lo : ℝ) (es : List ℝ) (unit : String) (fc : Option ℝ)
    (kw : Option (Option String)) (opts : MedianOpts) (e : Env) (c : CircularObj)
    (hp : (lo :: es).Pairwise (· < ·)) (hne : es ≠ [])
    (h : circular data w (some (lo :: es)) unit fc none kw opts e = .ok c) :
    c.n = ((data.map fun x => 2 * π * x / c.fullCycle).countP fun a =>
      decide (lo ≤ a) && decide (a ≤ (lo :: es).getLast (by simp)) : ℕ) ∧ c.w.length = c.alpha.length ∧
      c.grouped = true := by
  obtain ⟨k, alpha, p, -, ha, hpr, hc⟩ := circular_ok h
  simp only [circularAlpha, Except.ok.injEq] at ha
  subst ha
  unfold prepare at hpr
  simp only at hpr
  split at hpr
  · simp at hpr
  · simp only [Except.ok.injEq] at hpr
    subst hpr
    refine ⟨?_, ?_, hc.grouped⟩
    · rw [hc.n, hc.fullCycle]
      simp only
      rw [histCounts_sum _ lo es hp hne]
      simp only [pyInt, Nat.cast_nonneg, if_true, Int.floor_natCast, data2rad]
    · rw [hc.w, hc.alpha]
      simp [histCounts_length]

end Verif.Props
