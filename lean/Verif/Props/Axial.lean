import Verif.Props.BaseC

/-!
# C66: `Axial` objects
-/

set_option autoImplicit false

namespace Verif.Props

open Verif Verif.Spec Real

private lemma pymod_add_mul (x m : ℝ) (z : ℤ) (hm : m ≠ 0) : pymod (x + z * m) m = pymod x m := by
  unfold pymod
  have : (x + z * m) / m = x / m + z := by field_simp
  rw [this, Int.floor_add_intCast]
  push_cast; ring

/-- An axis has two opposite directions: replacing any of the data by the opposite direction (half a cycle away, any
number of times) changes nothing but the stored angles. -/
theorem C66_opposite (data data' : List ℝ) (w edges : Option (List ℝ)) (unit : String) (fc rot : Option ℝ)
    (kw : Option (Option String)) (opts : MedianOpts) (e : Env) (cycle : ℝ) (hc0 : cycle ≠ 0)
    (hu : UnitCycle unit cycle ∨ fc = some cycle ∧ ∀ k, ¬ UnitCycle unit k)
    (h : List.Forall₂ (CongMod (cycle / 2)) data data') (a : AxialObj)
    (ha : axial data w edges unit fc rot kw opts e = .ok a) :
    ∃ a', axial data' w edges unit fc rot kw opts e = .ok a' ∧ a'.base = a.base ∧ a'.dataDouble = a.dataDouble ∧
      a'.alphaDouble = a.alphaDouble ∧ a'.mean = a.mean ∧ a'.meanCi = a.meanCi := by
  have hmod : axialModulus unit fc = .ok cycle := by
    unfold axialModulus
    rcases hu with (⟨h1, h2⟩ | ⟨h1, h2⟩ | ⟨h1, h2⟩) | ⟨h1, h2⟩
    · simp [h1, h2]
    · simp [h1, h2]
    · simp [h1, h2]
    · rw [if_neg (fun hh => h2 360 (Or.inl ⟨hh, rfl⟩)), if_neg (fun hh => h2 (2 * π) (Or.inr (Or.inl ⟨hh, rfl⟩))),
        if_neg (fun hh => h2 24 (Or.inr (Or.inr ⟨hh, rfl⟩))), h1]
  have hdd : (data.map fun x => pymod (2 * x) cycle) = data'.map fun x => pymod (2 * x) cycle := by
    clear ha
    induction h with
    | nil => rfl
    | @cons x y _ _ hxy _ ih =>
      simp only [List.map_cons, ih]
      congr 1
      obtain ⟨z, rfl⟩ := hxy
      rw [show 2 * (y + z * (cycle / 2)) = 2 * y + z * cycle by ring, pymod_add_mul _ _ _ hc0]
  unfold axial at ha ⊢
  rw [hmod] at ha ⊢
  simp only [Except.bind] at ha ⊢
  rw [← hdd]
  obtain ⟨c, hc, ha⟩ := except_map_ok ha
  rw [hc]
  exact ⟨_, rfl, by rw [← ha], by rw [← ha], by rw [← ha], by rw [← ha], by rw [← ha]⟩

private lemma axial_ok {data : List ℝ} {w edges : Option (List ℝ)} {unit : String} {fc rot : Option ℝ}
    {kw : Option (Option String)} {opts : MedianOpts} {e : Env} {a : AxialObj}
    (ha : axial data w edges unit fc rot kw opts e = .ok a) : ∃ m, axialModulus unit fc = .ok m ∧
      circular (data.map fun x => pymod (2 * x) m) w edges unit fc rot kw opts e = .ok a.base ∧
      a.dataDouble = (data.map fun x => pymod (2 * x) m) ∧ a.alphaDouble = a.base.alpha ∧
      a.alpha = data.map (fun x => data2rad x a.base.fullCycle) ∧
      a.mean = a.base.mean.map (· / 2) ∧ a.meanCi = a.base.meanCi.map fun q => (q.1 / 2, q.2 / 2) := by
  unfold axial at ha
  obtain ⟨m, hm, ha⟩ := except_bind_ok ha
  obtain ⟨c, hc, ha⟩ := except_map_ok ha
  subst ha
  exact ⟨m, hm, hc, rfl, rfl, rfl, rfl, rfl⟩

/-- The axial mean lies in `[0, π)` and its double is the direction of the mean vector of the doubled sample. -/
theorem C66_mean (data : List ℝ) (w edges : Option (List ℝ)) (unit : String) (fc rot : Option ℝ)
    (kw : Option (Option String)) (opts : MedianOpts) (e : Env) (a : AxialObj) (m : ℝ)
    (ha : axial data w edges unit fc rot kw opts e = .ok a) (hm : a.mean = some m) :
    0 ≤ m ∧ m < π ∧ ∃ ρ : ℝ, 0 < ρ ∧ moment a.alphaDouble a.base.w 1 = ρ * Complex.exp ((2 * m : ℝ) * Complex.I) := by
  obtain ⟨_, -, hc, -, h2, -, h3, -⟩ := axial_ok ha
  obtain ⟨-, -, -, -, -, -, h5, h4, -⟩ := C65_attributes _ _ _ _ _ _ _ _ _ _ hc
  rw [h3, Option.map_eq_some_iff] at hm
  obtain ⟨b, hb, rfl⟩ := hm
  obtain ⟨h6, h7, h8⟩ := h4 b hb
  refine ⟨by linarith, by linarith, a.base.r, ?_, ?_⟩
  · by_contra h
    have : a.base.mean = none := h5.2 (by have : a.base.r ≤ 0 := not_lt.1 h; linarith [show (0 : ℝ) ≤ 1 / 10 ^ 12 by positivity])
    rw [hb] at this; cases this
  · rw [h2, h8, show 2 * (b / 2) = b by ring]

/-- Plain observations: the doubled angles are twice the angles of the data, whole turns apart, when the cycle in force
is that of the unit. -/
theorem C66_doubled (data : List ℝ) (unit : String) (cycle : ℝ) (fc : Option ℝ) (hc0 : cycle ≠ 0)
    (hu : (UnitCycle unit cycle ∧ (fc = none ∨ fc = some cycle)) ∨ fc = some cycle ∧ ∀ k, ¬ UnitCycle unit k)
    (kw : Option (Option String)) (opts : MedianOpts) (e : Env) (a : AxialObj)
    (ha : axial data none none unit fc none kw opts e = .ok a) :
    a.alpha = data.map (fun x => 2 * π * x / cycle) ∧ List.Forall₂ (fun d x => SameDir d (2 * x)) a.alphaDouble a.alpha := by
  obtain ⟨md, hm, hc, h1, h2, h3, -, -⟩ := axial_ok ha
  have hmd : md = cycle := by
    unfold axialModulus at hm
    rcases hu with ⟨(⟨h1, h2⟩ | ⟨h1, h2⟩ | ⟨h1, h2⟩), -⟩ | ⟨h1, h2⟩
    · simpa [h1, h2] using hm.symm
    · simpa [h1, h2] using hm.symm
    · simpa [h1, h2] using hm.symm
    · rw [if_neg (fun hh => h2 360 (Or.inl ⟨hh, rfl⟩)), if_neg (fun hh => h2 (2 * π) (Or.inr (Or.inl ⟨hh, rfl⟩))),
        if_neg (fun hh => h2 24 (Or.inr (Or.inr ⟨hh, rfl⟩))), h1] at hm
      simpa using hm.symm
  subst hmd
  have hfc : a.base.fullCycle = md := by
    have := C65_full_cycle _ _ _ _ _ _ _ _ _ _ hc
    rcases this with h | ⟨h, h'⟩
    · rcases hu with ⟨-, hh | hh⟩ | ⟨hh, -⟩
      · rw [hh] at h; cases h
      · rw [hh] at h; cases h; rfl
      · rw [hh] at h; cases h; rfl
    · rcases hu with ⟨hu, -⟩ | ⟨hh, -⟩
      · unfold UnitCycle at h' hu
        rcases h' with ⟨a1, a2⟩ | ⟨a1, a2⟩ | ⟨a1, a2⟩ <;> rcases hu with ⟨b1, b2⟩ | ⟨b1, b2⟩ | ⟨b1, b2⟩ <;>
          first | (rw [a2, b2]; done) | (exfalso; rw [a1] at b1; simp at b1; done)
      · rw [hh] at h; cases h
  obtain ⟨h4, -⟩ := C65_ungrouped _ _ _ _ _ _ _ hc
  rw [hfc] at h3 h4
  refine ⟨h3, ?_⟩
  rw [h2, h4, h3, List.map_map, List.forall₂_map_left_iff, List.forall₂_map_right_iff]
  refine List.forall₂_same.2 fun x _ => ?_
  refine ⟨-⌊2 * x / md⌋, ?_⟩
  simp only [Function.comp, data2rad, pymod]
  field_simp
  push_cast
  ring

/-- Adding `t` (in data units) to every plain observation turns the axial mean by the corresponding angle, modulo `π`. -/
theorem C66_rotate (data : List ℝ) (t : ℝ) (unit : String) (cycle : ℝ) (fc : Option ℝ) (hc0 : cycle ≠ 0)
    (hu : (UnitCycle unit cycle ∧ (fc = none ∨ fc = some cycle)) ∨ fc = some cycle ∧ ∀ k, ¬ UnitCycle unit k)
    (kw : Option (Option String)) (opts : MedianOpts) (e : Env) (a a' : AxialObj) (m : ℝ)
    (ha : axial data none none unit fc none kw opts e = .ok a)
    (ha' : axial (data.map (· + t)) none none unit fc none kw opts e = .ok a') (hm : a.mean = some m) :
    ∃ m', a'.mean = some m' ∧ CongMod π m' (m + 2 * π * t / cycle) := by
  obtain ⟨h1, h2⟩ := C66_doubled data unit cycle fc hc0 hu kw opts e a ha
  obtain ⟨h1', h2'⟩ := C66_doubled _ unit cycle fc hc0 hu kw opts e a' ha'
  obtain ⟨_, -, hc, hd, he, -, h3, -⟩ := axial_ok ha
  obtain ⟨_, -, hc', hd', he', -, h3', -⟩ := axial_ok ha'
  obtain ⟨-, -, hw, -⟩ := C65_ungrouped _ _ _ _ _ _ _ hc
  obtain ⟨-, -, hw', -⟩ := C65_ungrouped _ _ _ _ _ _ _ hc'
  have hww : a'.base.w = a.base.w := by rw [hw, hw']; simp [Function.comp_def]
  obtain ⟨-, -, -, hr, -, -, hn, hp, -⟩ := C65_attributes _ _ _ _ _ _ _ _ _ _ hc
  obtain ⟨-, -, -, hr', -, -, hn', hp', -⟩ := C65_attributes _ _ _ _ _ _ _ _ _ _ hc'
  rw [← he] at hr hp
  rw [← he', hww] at hr' hp'
  set τ := 2 * π * (2 * t) / cycle with hτ
  have hmom : moment a'.alphaDouble a.base.w 1 = Complex.exp ((τ : ℝ) * Complex.I) * moment a.alphaDouble a.base.w 1 := by
    have e1 : moment a'.alphaDouble a.base.w 1 = moment (a.alphaDouble.map (· + τ)) a.base.w 1 := by
      apply moment_congr
      rw [h1', List.map_map, List.forall₂_map_right_iff] at h2'
      rw [h1, List.forall₂_map_right_iff] at h2
      rw [List.forall₂_map_right_iff]
      have hl := h2.length_eq
      have hl' := h2'.length_eq
      rw [List.forall₂_iff_get] at h2 h2' ⊢
      refine ⟨by omega, fun i hi hj => ?_⟩
      have g := h2.2 i hj (by omega)
      have g' := h2'.2 i hi (by omega)
      simp only [Function.comp, List.get_eq_getElem] at g g' ⊢
      refine g'.trans ?_
      obtain ⟨z, hz⟩ := g
      refine ⟨-z, ?_⟩
      rw [hz, hτ]
      push_cast
      field_simp
      ring
    rw [e1, moment_rotate]
    simp
  rw [h3, Option.map_eq_some_iff] at hm
  obtain ⟨b, hb, rfl⟩ := hm
  have hrr : a'.base.r = a.base.r := by
    rw [hr, hr', hmom, norm_mul, Complex.norm_exp_ofReal_mul_I, one_mul]
  have hrpos : ¬ a.base.r ≤ 1 / 10 ^ 12 := fun h => by rw [hn.2 h] at hb; cases hb
  cases hb' : a'.base.mean with
  | none => exact absurd (hrr ▸ hn'.1 hb') hrpos
  | some b' =>
    refine ⟨b' / 2, by rw [h3', hb']; rfl, ?_⟩
    obtain ⟨-, -, g⟩ := hp b hb
    obtain ⟨-, -, g'⟩ := hp' b' hb'
    have hne : (a.base.r : ℂ) ≠ 0 := by
      norm_cast
      intro h; rw [h] at hrpos; exact hrpos (by positivity)
    have e2 : Complex.exp ((b' : ℂ) * Complex.I) = Complex.exp (((b + τ : ℝ) : ℂ) * Complex.I) := by
      have : (a.base.r : ℂ) * Complex.exp ((b' : ℂ) * Complex.I)
          = a.base.r * Complex.exp (((b + τ : ℝ) : ℂ) * Complex.I) := by
        rw [← hrr, ← g', hmom, g, hrr]
        push_cast
        rw [add_mul, Complex.exp_add]; ring
      exact mul_left_cancel₀ hne this
    rw [Complex.exp_eq_exp_iff_exists_int] at e2
    obtain ⟨z, hz⟩ := e2
    have hz' : b' = b + τ + z * (2 * π) := by
      have := congrArg Complex.im hz
      simpa using this
    refine ⟨z, ?_⟩
    rw [hz', hτ]
    ring

private lemma list2 {a b c d : ℝ} (h1 : a = c) (h2 : b = d) : [a, b] = [c, d] := by rw [h1, h2]

private lemma median_none {alpha : List ℝ} {init : List (Option ℝ)} (h : ‖moment alpha (ones alpha) 1‖ ≤ 1 / 2) :
    circMedian alpha (ones alpha) "none" true "all" init = .ok none := by
  have hc : allCoincide alpha (ones alpha) = false := by
    unfold allCoincide
    rw [circR_eq]
    split_ifs with h0
    · rfl
    · apply decide_eq_false
      unfold isclose rtolDefault
      rw [abs_of_nonpos (by linarith), abs_one]
      norm_num
      linarith
  have hw : ¬ ¬ ∀ x ∈ ones alpha, x = 1 := by simp [ones]
  unfold circMedian
  rw [if_neg (by rw [hc]; simp), medianCandidates, if_neg hw]
  simp [Except.bind, averageMedian, Except.map]

private lemma pair_quiet {a b : ℝ} (e : Env) (k : ℝ) (h : ‖moment [a, b] (ones [a, b]) 1‖ ≤ 1 / 2) :
    ∃ c, circularOf k ⟨[a, b], ones [a, b], false, 0⟩ none { method := "none" } e = .ok c := by
  have hsum : (ones [a, b]).sum = 2 := by norm_num [ones]
  have hint : pyInt (ones [a, b]).sum = 2 := by rw [hsum]; simp only [pyInt]; norm_num
  refine (circularOf_quiet (k := k) (kw := none) (opts := { method := "none" }) (e := e) (mci := none)
    (p := ⟨[a, b], ones [a, b], false, 0⟩) (by rw [hsum]; norm_num) (by rw [hint]; norm_num) (by linarith) ?_
    (median_none h)).1 rfl
  simp only
  rw [hint]
  have h0 := norm_nonneg (moment [a, b] (ones [a, b]) 1)
  set r := ‖moment [a, b] (ones [a, b]) 1‖
  have h5 : (4.4 : ℝ) ≤ sqrt (1 + 4 * ((2 : ℤ) : ℝ) + 4 * (((2 : ℤ) : ℝ) ^ 2 - (((2 : ℤ) : ℝ) * r) ^ 2)) := by
    apply le_sqrt_of_sq_le; push_cast; nlinarith
  generalize sqrt (1 + 4 * ((2 : ℤ) : ℝ) + 4 * (((2 : ℤ) : ℝ) ^ 2 - (((2 : ℤ) : ℝ) * r) ^ 2)) = q at h5 ⊢
  have := add_one_le_exp (q - (1 + 2 * ((2 : ℤ) : ℝ)))
  have h6 : (0.05 : ℝ) ≤ q - (1 + 2 * ((2 : ℤ) : ℝ)) + 1 := by
    push_cast; norm_num at h5 ⊢; linarith
  exact h6.trans this

/-- The doubling uses the cycle of the unit even when another `full_cycle` is given: with unit "degree" and a full
cycle of 400 the opposite observations 0 and 200 are told apart; the axial mean of {0, 100} is undefined, that of
{200, 100} is not. -/
theorem C66_other_cycle_fails (e : Env) : ∃ a a',
    axial [0, 100] none none "degree" (some 400) none none { method := "none" } e = .ok a ∧
    axial [200, 100] none none "degree" (some 400) none none { method := "none" } e = .ok a' ∧
    a.mean = none ∧ a'.mean ≠ none := by
  have hpi := pi_pos
  have hm0 : pymod (2 * 0) 360 = 0 := by simp [pymod]
  have hm1 : pymod (2 * 100) 360 = 200 := by
    have : ⌊((2 : ℝ) * 100) / 360⌋ = 0 := by rw [Int.floor_eq_iff]; norm_num
    simp only [pymod, this]; norm_num
  have hm2 : pymod (2 * 200) 360 = 40 := by
    have : ⌊((2 : ℝ) * 200) / 360⌋ = 1 := by rw [Int.floor_eq_iff]; norm_num
    simp only [pymod, this]; norm_num
  have ha : circularAlpha [0, 200] 400 none = .ok [0, π] := by
    simp only [circularAlpha, List.map_cons, List.map_nil, data2rad, Except.ok.injEq]
    exact list2 (by ring) (by ring)
  have ha' : circularAlpha [40, 200] 400 none = .ok [π / 5, π] := by
    simp only [circularAlpha, List.map_cons, List.map_nil, data2rad, Except.ok.injEq]
    exact list2 (by ring) (by ring)
  have hsum : ∀ a b : ℝ, (ones [a, b]).sum = 2 := fun a b => by norm_num [ones]
  have hmom : moment [0, π] (ones [0, π]) 1 = 0 := by
    rw [moment, expSum_ones, hsum]; simp [resultant, Complex.exp_pi_mul_I]
  have hmom' : ‖moment [π / 5, π] (ones [π / 5, π]) 1‖ = cos (2 * π / 5) := by
    have h1 : moment [π / 5, π] (ones [π / 5, π]) 1
        = Complex.exp (((3 * π / 5 : ℝ) : ℂ) * Complex.I) * ((cos (2 * π / 5) : ℝ) : ℂ) := by
      rw [moment, expSum_ones, hsum]
      simp only [resultant, List.map_cons, List.map_nil, List.sum_cons, List.sum_nil, add_zero]
      push_cast
      rw [Complex.cos, mul_div_assoc', mul_add, ← Complex.exp_add, ← Complex.exp_add]
      rw [add_comm]
      congr 2
      · congr 1; ring
      · congr 1; ring
    rw [h1, norm_mul, Complex.norm_exp_ofReal_mul_I, one_mul, Complex.norm_real, Real.norm_eq_abs, abs_of_nonneg]
    exact cos_nonneg_of_mem_Icc ⟨by linarith, by linarith⟩
  have hle : cos (2 * π / 5) ≤ 1 / 2 := by
    rw [← cos_pi_div_three]
    exact cos_le_cos_of_nonneg_of_le_pi (by positivity) (by linarith) (by linarith)
  have hge : 0.01 < cos (2 * π / 5) := by
    have h1 := one_sub_sq_div_two_le_cos (x := 2 * π / 5)
    have h2 := pi_lt_d2
    nlinarith
  obtain ⟨c, hc⟩ := pair_quiet e 400 (a := 0) (b := π) (by rw [hmom]; norm_num)
  obtain ⟨c', hc'⟩ := pair_quiet e 400 (a := π / 5) (b := π) (by rw [hmom']; exact hle)
  have hC : circular [0, 200] none none "degree" (some 400) none none { method := "none" } e = .ok c := by
    simp only [circular, fullCycleOf, Except.bind, ha, prepare]; exact hc
  have hC' : circular [40, 200] none none "degree" (some 400) none none { method := "none" } e = .ok c' := by
    simp only [circular, fullCycleOf, Except.bind, ha', prepare]; exact hc'
  have hA : ∃ a, axial [0, 100] none none "degree" (some 400) none none { method := "none" } e = .ok a ∧ a.base = c := by
    simp only [axial, axialModulus, if_true, Except.bind, List.map_cons, List.map_nil, hm0, hm1, hC, Except.map]
    exact ⟨_, rfl, rfl⟩
  have hA' : ∃ a, axial [200, 100] none none "degree" (some 400) none none { method := "none" } e = .ok a ∧
      a.base = c' := by
    simp only [axial, axialModulus, if_true, Except.bind, List.map_cons, List.map_nil, hm1, hm2, hC', Except.map]
    exact ⟨_, rfl, rfl⟩
  obtain ⟨a, hA, hb⟩ := hA
  obtain ⟨a', hA', hb'⟩ := hA'
  obtain ⟨_, -, -, -, -, -, h1, -⟩ := axial_ok hA
  obtain ⟨_, -, -, -, -, -, h1', -⟩ := axial_ok hA'
  refine ⟨a, a', hA, hA', ?_, ?_⟩
  · rw [h1, hb, (circularOf_ok hc).mean]
    simp [hmom]
  · rw [h1', hb', (circularOf_ok hc').mean, hmom', if_neg (by
      rw [not_le]; linarith [show (1 : ℝ) / 10 ^ 12 < 0.01 by norm_num])]
    simp

/-- Three observations at 90°: the axial mean is `π/2`, but the reported median is that of the doubled angles, `π`. -/
theorem C66_median_not_halved (e : Env) : ∃ a,
    axial [90, 90, 90] none none "degree" none none none {} e = .ok a ∧ a.mean = some (π / 2) ∧
    a.base.median = some [π] := by
  have hpi := pi_pos
  have hm1 : pymod (2 * 90) 360 = 180 := by
    have : ⌊((2 : ℝ) * 90) / 360⌋ = 0 := by rw [Int.floor_eq_iff]; norm_num
    simp only [pymod, this]; norm_num
  have ha : circularAlpha [180, 180, 180] 360 none = .ok [π, π, π] := by
    have : data2rad 180 360 = π := by simp only [data2rad]; ring
    simp only [circularAlpha, List.map_cons, List.map_nil, this]
  have hsum : (ones [π, π, π]).sum = 3 := by norm_num [ones]
  have hint : pyInt (ones [π, π, π]).sum = 3 := by rw [hsum]; simp only [pyInt]; norm_num
  have hmom : moment [π, π, π] (ones [π, π, π]) 1 = -1 := by
    rw [moment, expSum_ones, hsum]
    simp only [resultant, List.map_cons, List.map_nil, List.sum_cons, List.sum_nil, Complex.exp_pi_mul_I]
    push_cast; norm_num
  have hnorm : ‖moment [π, π, π] (ones [π, π, π]) 1‖ = 1 := by rw [hmom]; simp
  have hmed : circMedian [π, π, π] (ones [π, π, π]) "deviation" true "all" e.init = .ok (some [π]) := by
    have : allCoincide [π, π, π] (ones [π, π, π]) = true := by
      unfold allCoincide
      rw [circR_eq, if_neg (by rw [hsum]; norm_num), hnorm]
      simp [isclose, rtolDefault]
      positivity
    simp [circMedian, this]
  have hok : ∃ c, circularOf 360 ⟨[π, π, π], ones [π, π, π], false, 0⟩ none {} e = .ok c := by
    unfold circularOf
    simp only
    rw [circMeanAndR_eq, if_neg (by rw [hsum]; norm_num)]
    simp only [hint, hnorm]
    simp only [rayleighTest, rayleighOf]
    rw [if_neg (by norm_num), if_neg (by norm_num), if_neg (by norm_num)]
    simp only [Except.bind, circularMeanCi, meanCiMethod]
    rw [if_neg (by rintro ⟨-, h, -⟩; norm_num at h), if_neg (by rintro ⟨-, h⟩; norm_num at h)]
    simp only [hmed]
    exact ⟨_, rfl⟩
  obtain ⟨c, hc⟩ := hok
  have hC : circular [180, 180, 180] none none "degree" none none none {} e = .ok c := by
    simp only [circular, fullCycleOf, if_true, Except.bind, ha, prepare]; exact hc
  have hA : ∃ a, axial [90, 90, 90] none none "degree" none none none {} e = .ok a ∧ a.base = c := by
    simp only [axial, axialModulus, if_true, Except.bind, List.map_cons, List.map_nil, hm1, hC, Except.map]
    exact ⟨_, rfl, rfl⟩
  obtain ⟨a, hA, hb⟩ := hA
  obtain ⟨_, -, -, -, -, -, h1, -⟩ := axial_ok hA
  refine ⟨a, hA, ?_, ?_⟩
  · rw [h1, hb, (circularOf_ok hc).mean, hnorm, if_neg (by norm_num), hmom, Complex.arg_neg_one]
    simp [angmod2pi_eq_self pi_pos.le (by linarith : π < 2 * π)]
  · have := (circularOf_ok hc).median
    simp only at this
    rw [hmed, Except.ok.injEq] at this
    rw [hb, ← this]

/-- Frequencies of eight bins of 45°: the doubled, wrapped bin centres give a bin size of `-3π/2`, and the reported
standard deviations of a sample concentrated in one bin are not numbers. -/
theorem C66_grouped_bin_size (e : Env) : ∃ a,
    axial [0, 45, 90, 135, 180, 225, 270, 315] (some [1, 0, 0, 0, 0, 0, 0, 0]) none "degree" none none none {} e = .ok a ∧
    a.base.binSize = -(3 * π / 2) ∧ a.base.s = none ∧ a.base.s0 = none := by
  have hpi := pi_pos
  have hmod : ∀ x r : ℝ, ∀ z : ℤ, 2 * x = r + z * 360 → 0 ≤ r → r < 360 → pymod (2 * x) 360 = r := by
    intro x r z h h0 h1
    have : ⌊2 * x / 360⌋ = z := by
      rw [Int.floor_eq_iff, h]
      constructor
      · rw [le_div_iff₀ (by norm_num)]; linarith
      · rw [div_lt_iff₀ (by norm_num)]; linarith
    simp only [pymod, this]; rw [h]; ring
  have hdd : ([0, 45, 90, 135, 180, 225, 270, 315] : List ℝ).map (fun x => pymod (2 * x) 360)
      = [0, 90, 180, 270, 0, 90, 180, 270] := by
    simp only [List.map_cons, List.map_nil]
    rw [hmod 0 0 0 (by norm_num) (by norm_num) (by norm_num), hmod 45 90 0 (by norm_num) (by norm_num) (by norm_num),
      hmod 90 180 0 (by norm_num) (by norm_num) (by norm_num), hmod 135 270 0 (by norm_num) (by norm_num) (by norm_num),
      hmod 180 0 1 (by norm_num) (by norm_num) (by norm_num), hmod 225 90 1 (by norm_num) (by norm_num) (by norm_num),
      hmod 270 180 1 (by norm_num) (by norm_num) (by norm_num), hmod 315 270 1 (by norm_num) (by norm_num) (by norm_num)]
  set al : List ℝ := [0, π / 2, π, 3 * π / 2, 0, π / 2, π, 3 * π / 2] with hal
  set ww : List ℝ := [1, 0, 0, 0, 0, 0, 0, 0] with hww
  have ha : circularAlpha [0, 90, 180, 270, 0, 90, 180, 270] 360 none = .ok al := by
    have h0 : data2rad 0 360 = 0 := by simp [data2rad]
    have h1 : data2rad 90 360 = π / 2 := by simp only [data2rad]; ring
    have h2 : data2rad 180 360 = π := by simp only [data2rad]; ring
    have h3 : data2rad 270 360 = 3 * π / 2 := by simp only [data2rad]; ring
    simp only [circularAlpha, List.map_cons, List.map_nil, h0, h1, h2, h3, hal]
  have hb : prepare al (some ww) none = .ok ⟨al, ww, true, -(3 * π / 2)⟩ := by
    unfold prepare
    simp only
    rw [if_neg (by simp [hal, hww])]
    have : minL (diff al) = some (-(3 * π / 2)) := by
      simp only [hal, diff, List.tail_cons, List.zipWith_cons_cons, List.zipWith_nil_right, minL, List.foldl_cons,
        List.foldl_nil, Option.some.injEq]
      have e1 : π - π / 2 = π / 2 := by ring
      have e2 : 3 * π / 2 - π = π / 2 := by ring
      have e3 : 0 - 3 * π / 2 = -(3 * π / 2) := by ring
      rw [e1, e2, e3, sub_zero]
      simp only [min_self]
      rw [min_eq_right (by linarith : -(3 * π / 2) ≤ π / 2), min_eq_left (by linarith : -(3 * π / 2) ≤ π / 2),
        min_eq_left (by linarith : -(3 * π / 2) ≤ π / 2), min_eq_left (by linarith : -(3 * π / 2) ≤ π / 2)]
    rw [this]
  have hsum : ww.sum = 1 := by simp [hww]
  have hint : pyInt ww.sum = 1 := by rw [hsum]; simp [pyInt]
  have hnorm : ‖moment al ww 1‖ = 1 := by
    have : moment al ww 1 = 1 := by simp [moment, expSum, hal, hww]
    rw [this]; simp
  have hmed : circMedian al ww "deviation" true "all" e.init = .ok (some [0]) := by
    have : allCoincide al ww = true := by
      unfold allCoincide
      rw [circR_eq, if_neg (by rw [hsum]; norm_num), hnorm]
      simp [isclose, rtolDefault]
      positivity
    unfold circMedian
    rw [if_pos this]
  obtain ⟨c, hc⟩ := (circularOf_quiet (k := 360) (kw := none) (opts := {}) (e := e) (mci := none)
    (p := ⟨al, ww, true, -(3 * π / 2)⟩)
    (by rw [hsum]; norm_num) (by rw [hint]; norm_num) hnorm.le (by
      simp only
      rw [hint, hnorm]
      have h5 : (2.2 : ℝ) ≤ sqrt 5 := by apply le_sqrt_of_sq_le; norm_num
      have := add_one_le_exp (sqrt 5 - 3)
      have e1 : sqrt (1 + 4 * ((1 : ℤ) : ℝ) + 4 * (((1 : ℤ) : ℝ) ^ 2 - (((1 : ℤ) : ℝ) * 1) ^ 2)) - (1 + 2 * ((1 : ℤ) : ℝ))
          = sqrt 5 - 3 := by norm_num
      rw [e1]; linarith) hmed).1 rfl
  have hC : circular [0, 90, 180, 270, 0, 90, 180, 270] (some ww) none "degree" none none none {} e = .ok c := by
    simp only [circular, fullCycleOf, if_true, Except.bind, ha, hb]; exact hc
  have hA : ∃ a, axial [0, 45, 90, 135, 180, 225, 270, 315] (some ww) none "degree" none none none {} e = .ok a ∧
      a.base = c := by
    unfold axial
    simp only [axialModulus, if_true, Except.bind]
    rw [hdd, hC]
    exact ⟨_, rfl, rfl⟩
  obtain ⟨a, hA, hbase⟩ := hA
  have hcp := circularOf_ok hc
  have hs := hcp.s
  have hs0 := hcp.s0
  simp only at hs hs0
  rw [hcp.r] at hs hs0
  simp only [hnorm] at hs hs0
  have hsin : sin (-(3 * π / 2) / 2) = -(sqrt 2 / 2) := by
    rw [show -(3 * π / 2) / 2 = -(π - π / 4) by ring, sin_neg, sin_pi_sub, sin_pi_div_four]
  have h2pos : (0 : ℝ) < sqrt 2 := by positivity
  have h2lt : sqrt 2 < 1.5 := by rw [sqrt_lt' (by norm_num)]; norm_num
  have hcr : correctedR 1 (some (-(3 * π / 2))) = some (3 * π / 2 / sqrt 2) := by
    simp only [correctedR]
    rw [if_neg (by linarith), hsin, pydiv, if_neg (by linarith)]
    show some _ = _
    congr 1
    field_simp
  have hbig : 1 < 3 * π / 2 / sqrt 2 := by
    rw [lt_div_iff₀ h2pos]
    linarith [pi_gt_three]
  refine ⟨a, hA, by rw [hbase]; exact hcp.binSize, ?_, ?_⟩
  · simp only [angularStd, angularVar, circVar, effectiveR, effectiveBin, bind, Except.bind, pure, Except.pure, hcr,
      Option.bind, Option.map, pysqrt] at hs
    rw [if_pos (by linarith)] at hs
    rw [hbase]; simpa using hs.symm
  · simp only [circStd, circVar, effectiveR, effectiveBin, bind, Except.bind, pure, Except.pure, hcr,
      Option.bind, pysqrt, pylog, sub_sub_cancel] at hs0
    rw [if_neg (by linarith)] at hs0
    simp only at hs0
    have := log_pos hbig
    rw [if_pos (by linarith)] at hs0
    rw [hbase]; simpa using hs0.symm

end Verif.Props
