import Verif.Props.Base
import Verif.Props.Median

/-!
# C96, C97, C98: binning, medians and default intervals of `Circular` objects
-/

set_option autoImplicit false

namespace Verif.Props

open Verif Verif.Spec Real

/-- Two observations at -10° and 10°, binned into four quadrants: the first one is lost, although -10° and 350°
are the same direction. -/
theorem C96_angle_lost (e : Env) : ∃ c,
    circular [-10, 10] none (some (histEdges 4)) "degree" none none none {} e = .ok c ∧ c.n = 1 := by
  have hpi := pi_pos
  have hE : histEdges 4 = [0, π / 2, π, 3 * π / 2, 2 * π] := by
    simp only [histEdges, List.range, List.range.loop, List.map_cons, List.map_nil]
    push_cast
    refine congrArg₂ _ (by ring) (congrArg₂ _ (by ring) (congrArg₂ _ (by ring) (congrArg₂ _ (by ring)
      (congrArg₂ _ (by ring) rfl))))
  have ha : circularAlpha [-10, 10] 360 none = .ok [-(π / 18), π / 18] := by
    simp only [circularAlpha, List.map_cons, List.map_nil, data2rad, Except.ok.injEq]
    refine congrArg₂ _ (by ring) (congrArg₂ _ (by ring) rfl)
  have hw : histCounts [-(π / 18), π / 18] [0, π / 2, π, 3 * π / 2, 2 * π] = [1, 0, 0, 0] := by
    have h1 : ¬ (0 ≤ -(π / 18)) := by linarith
    have h2 : (0 : ℝ) ≤ π / 18 := by linarith
    have h3 : π / 18 < π / 2 := by linarith
    have h4 : ¬ (π / 2 ≤ -(π / 18)) := by linarith
    have h5 : ¬ (π / 2 ≤ π / 18) := by linarith
    have h6 : ¬ (π ≤ -(π / 18)) := by linarith
    have h7 : ¬ (π ≤ π / 18) := by linarith
    have h8 : ¬ (3 * π / 2 ≤ -(π / 18)) := by linarith
    have h9 : ¬ (3 * π / 2 ≤ π / 18) := by linarith
    simp only [histCounts, List.countP_cons, List.countP_nil, h1, h2, h3, h4, h5, h6, h7, h8, h9, decide_false,
      decide_true, Bool.false_and, Bool.and_self, if_true]
    norm_num
  have hmin : ∃ b, prepare [-(π / 18), π / 18] none (some (histEdges 4))
      = .ok ⟨[π / 4, 3 * π / 4, 5 * π / 4, 7 * π / 4], [1, 0, 0, 0], true, b⟩ := by
    have hc : List.zipWith (fun lo hi : ℝ => 0.5 * (lo + hi)) [0, π / 2, π, 3 * π / 2, 2 * π]
        ([0, π / 2, π, 3 * π / 2, 2 * π] : List ℝ).tail = [π / 4, 3 * π / 4, 5 * π / 4, 7 * π / 4] := by
      simp only [List.tail_cons, List.zipWith_cons_cons, List.zipWith_nil_right]
      refine congrArg₂ _ (by ring) (congrArg₂ _ (by ring) (congrArg₂ _ (by ring) (congrArg₂ _ (by ring) rfl)))
    rw [hE]
    unfold prepare
    simp only
    rw [hc, hw]
    simp only [diff, List.tail_cons, List.zipWith_cons_cons, List.zipWith_nil_right, minL]
    exact ⟨_, rfl⟩
  obtain ⟨b, hb⟩ := hmin
  have hsum : ([1, 0, 0, 0] : List ℝ).sum = 1 := by simp
  have hmom : ‖moment [π / 4, 3 * π / 4, 5 * π / 4, 7 * π / 4] [1, 0, 0, 0] 1‖ = 1 := by
    have : moment [π / 4, 3 * π / 4, 5 * π / 4, 7 * π / 4] [1, 0, 0, 0] 1
        = Complex.exp (((π / 4 : ℝ) : ℂ) * Complex.I) := by
      simp [moment, expSum]
    rw [this, Complex.norm_exp_ofReal_mul_I]
  have hint : pyInt ([1, 0, 0, 0] : List ℝ).sum = 1 := by
    rw [hsum]; simp [pyInt]
  have hmed : circMedian [π / 4, 3 * π / 4, 5 * π / 4, 7 * π / 4] [1, 0, 0, 0] "deviation" true "all" e.init
      = .ok (some [π / 4]) := by
    have : allCoincide [π / 4, 3 * π / 4, 5 * π / 4, 7 * π / 4] [1, 0, 0, 0] = true := by
      unfold allCoincide
      rw [circR_eq, if_neg (by rw [hsum]; norm_num), hmom]
      simp [isclose, rtolDefault]
      positivity
    simp [circMedian, this]
  obtain ⟨c, hc⟩ := (circularOf_quiet (k := 360) (kw := none) (opts := {}) (e := e) (mci := none)
    (p := ⟨[π / 4, 3 * π / 4, 5 * π / 4, 7 * π / 4], [1, 0, 0, 0], true, b⟩)
    (by simp) (by rw [hint]; norm_num) hmom.le (by
      rw [hint, hmom]
      have h5 : (2.2 : ℝ) ≤ sqrt 5 := by apply le_sqrt_of_sq_le; norm_num
      have := add_one_le_exp (sqrt 5 - 3)
      have e1 : sqrt (1 + 4 * ((1 : ℤ) : ℝ) + 4 * (((1 : ℤ) : ℝ) ^ 2 - (((1 : ℤ) : ℝ) * 1) ^ 2)) - (1 + 2 * ((1 : ℤ) : ℝ))
          = sqrt 5 - 3 := by norm_num
      rw [e1]; linarith) hmed).1 rfl
  have hall : circular [-10, 10] none (some (histEdges 4)) "degree" none none none {} e = .ok c := by
    simp only [circular, fullCycleOf, if_true, Except.bind, ha, hb]
    exact hc
  refine ⟨c, hall, ?_⟩
  rw [(circularOf_ok hc).n, hint]

/-! ## medians -/

/-- An object of plain observations carries at most one median; its interval is there exactly when the median is. For
grouped data there is no interval. -/
theorem C97_single_median (data : List ℝ) (w edges : Option (List ℝ)) (unit : String) (fc rot : Option ℝ)
    (kw : Option (Option String)) (opts : MedianOpts) (e : Env) (c : CircularObj)
    (h : circular data w edges unit fc rot kw opts e = .ok c) :
    (c.grouped = true → c.medianCi = none) ∧
    (c.grouped = false → (c.median = none ∧ c.medianCi = none) ∨
      ∃ m ci, c.median = some [m] ∧ c.medianCi = some ci ∧ circMedianCi m c.alpha 0.95 e.z = .ok ci) := by
  obtain ⟨k, alpha, p, -, -, -, hc⟩ := circular_ok h
  have hm := hc.medianCi
  unfold circularMedianCi at hm
  rw [hc.grouped]
  constructor
  · intro hg
    rw [if_pos hg] at hm
    simpa using hm.symm
  · intro hg
    rw [if_neg (by simp [hg])] at hm
    split at hm
    · rename_i hmed
      exact Or.inl ⟨hmed, by simpa using hm.symm⟩
    · rename_i m hmed
      obtain ⟨ci, h1, h2⟩ := except_map_ok hm
      exact Or.inr ⟨m, ci, hmed, h2.symm, by rw [hc.alpha]; exact h1⟩
    · simp at hm

/-- Plain observations whose median search ends with several tied candidates and no averaging: there is no object. -/
theorem C97_tied_refused (data : List ℝ) (unit : String) (fc rot : Option ℝ)
    (kw : Option (Option String)) (opts : MedianOpts) (e : Env) (k a b : ℝ) (l alpha : List ℝ)
    (hk : fullCycleOf unit fc = .ok k) (ha : circularAlpha data k rot = .ok alpha)
    (hmed : circMedian alpha (ones alpha) opts.method opts.returnAverage opts.averageMethod e.init
      = .ok (some (a :: b :: l))) :
    ¬ ∃ c, circular data none none unit fc rot kw opts e = .ok c := by
  rintro ⟨c, h⟩
  obtain ⟨k', alpha', p, hk', ha', hp, hc⟩ := circular_ok h
  rw [hk] at hk'; cases hk'
  rw [ha] at ha'; cases ha'
  simp only [prepare, Except.ok.injEq] at hp
  subst hp
  have h1 := hc.median
  simp only at h1
  rw [hmed, Except.ok.injEq] at h1
  have h2 := hc.medianCi
  rw [← h1] at h2
  simp [circularMedianCi] at h2

/-- The observations 0°, 0°, 180° with `return_average=False` cannot be turned into an object: `ValueError`. -/
theorem C97_witness (e : Env) (he : e.init.length = 3) :
    circular [0, 0, 180] none none "degree" none none none { returnAverage := false } e = .error .valueError := by
  have hpi := pi_pos
  have ha : circularAlpha [0, 0, 180] 360 none = .ok [0, 0, π] := by
    simp only [circularAlpha, List.map_cons, List.map_nil, data2rad, Except.ok.injEq]
    refine congrArg₂ _ (by ring) (congrArg₂ _ (by ring) (congrArg₂ _ (by ring) rfl))
  have hsum : (ones [0, 0, π]).sum = 3 := by norm_num [ones]
  have hmom : ‖moment [0, 0, π] (ones [0, 0, π]) 1‖ = 1 / 3 := by
    have : moment [0, 0, π] (ones [0, 0, π]) 1 = ((1 / 3 : ℝ) : ℂ) := by
      rw [moment, expSum_ones, hsum]
      simp [resultant, Complex.exp_pi_mul_I]
    rw [this, Complex.norm_real]; norm_num
  have hcoin : allCoincide [0, 0, π] (ones [0, 0, π]) = false := by
    unfold allCoincide
    rw [circR_eq, if_neg (by rw [hsum]; norm_num), hmom]
    simp only [isclose, rtolDefault]
    norm_num
  have hint : pyInt (ones [0, 0, π]).sum = 3 := by
    rw [hsum]; simp only [pyInt]; norm_num
  obtain ⟨b, l, hmed⟩ : ∃ b l, circMedian [0, 0, π] (ones [0, 0, π]) "deviation" false "all" e.init
      = .ok (some (0 :: b :: l)) := by
    rw [C18_deviation_candidates [0, 0, π] e.init (by simp) (by simp [he]) hcoin "all" _ (fun _ => rfl)]
    have e0 : (([0, 0, π] : List ℝ).map fun a => π - |π - (|a - 0|)|).sum / ([0, 0, π] : List ℝ).length = π / 3 := by
      simp [abs_of_pos hpi]
    have e1 : (([0, 0, π] : List ℝ).map fun a => π - |π - (|a - π|)|).sum / ([0, 0, π] : List ℝ).length
        = 2 * π / 3 := by
      simp [abs_of_pos hpi]; ring
    have hlt : round5 (π / 3) < round5 (2 * π / 3) := by
      have h3 := pi_gt_three
      have h4 := abs_le.1 (round5_bound (π / 3))
      have h5 := abs_le.1 (round5_bound (2 * π / 3))
      norm_num at h4 h5
      linarith [h4.2, h5.1]
    rw [if_neg]
    · have hf : (([0, 0, π] : List ℝ).filter fun b => decide (∀ b' ∈ ([0, 0, π] : List ℝ),
          round5 ((([0, 0, π] : List ℝ).map fun a => π - |π - (|a - b|)|).sum / ([0, 0, π] : List ℝ).length) ≤
          round5 ((([0, 0, π] : List ℝ).map fun a => π - |π - (|a - b'|)|).sum / ([0, 0, π] : List ℝ).length)))
          = [0, 0] := by
        rw [List.filter_cons_of_pos, List.filter_cons_of_pos, List.filter_cons_of_neg]
        · rfl
        · simp only [List.mem_cons, List.not_mem_nil, or_false, forall_eq_or_imp, forall_eq, e0, e1]
          simp [hlt]
        · simp only [List.mem_cons, List.not_mem_nil, or_false, forall_eq_or_imp, forall_eq, e0, e1]
          simp [hlt.le]
        · simp only [List.mem_cons, List.not_mem_nil, or_false, forall_eq_or_imp, forall_eq, e0, e1]
          simp [hlt.le]
      rw [hf]
      refine ⟨0, [], ?_⟩
      simp [angmod2pi_eq_self le_rfl (by positivity : (0 : ℝ) < 2 * π)]
    · intro hh
      have := hh 0 (by simp) π (by simp)
      rw [e0, e1] at this
      exact hlt.ne this
  have := (circularOf_quiet (k := 360) (kw := none) (opts := { returnAverage := false }) (e := e) (mci := none)
    (p := ⟨[0, 0, π], ones [0, 0, π], false, 0⟩)
    (by rw [hsum]; norm_num) (by rw [hint]; norm_num) (by rw [hmom]; norm_num) (by
      simp only
      rw [hint, hmom]
      have h5 : (6.6 : ℝ) ≤ sqrt 45 := by apply le_sqrt_of_sq_le; norm_num
      have := add_one_le_exp (sqrt 45 - 7)
      have e1 : sqrt (1 + 4 * ((3 : ℤ) : ℝ) + 4 * (((3 : ℤ) : ℝ) ^ 2 - (((3 : ℤ) : ℝ) * (1 / 3)) ^ 2))
          - (1 + 2 * ((3 : ℤ) : ℝ)) = sqrt 45 - 7 := by norm_num
      rw [e1]; linarith) hmed).2 rfl
  simp only [circular, fullCycleOf, if_true, Except.bind, ha, prepare]
  exact this

end Verif.Props
