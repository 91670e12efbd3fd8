import Verif.Lemmas.Median
import Verif.Props.Dist
import Verif.Props.Resultant
import Mathlib.Analysis.SpecialFunctions.Trigonometric.Bounds

/-!
# C18, C19, C85, C86: circular medians
-/

set_option autoImplicit false

namespace Verif.Props

open Verif Verif.Spec Real

/-! ## C18 -/

private lemma ones_all (alpha : List ℝ) : ∀ x ∈ ones alpha, x = 1 := by simp [ones]

open Classical in
/-- candidates of the deviation method -/
private noncomputable def devCands (alpha : List ℝ) : Option (List ℝ) :=
  if ∀ b ∈ alpha, ∀ b' ∈ alpha, devScore alpha b ≤ devScore alpha b' then none
  else some (alpha.filter fun b => decide (∀ b' ∈ alpha, devScore alpha b ≤ devScore alpha b'))

private lemma medianDeviation_eq (alpha : List ℝ) (init : List (Option ℝ)) (hne : alpha ≠ [])
    (hinit : init.length = alpha.length) :
    circMedianDeviation alpha init = .ok (devCands alpha) := by
  have h : pairDeviation alpha init = .ok (circMeanDeviation alpha alpha) := by
    unfold pairDeviation
    split_ifs
    · exact (C16_chunked_eq_direct alpha alpha 1000 init hinit).1 (by norm_num)
    · rfl
  unfold circMedianDeviation
  rw [h]
  show (match ((circMeanDeviation alpha alpha).mapM id : Option (List ℝ)) with
    | none => Except.ok none
    | some score => tiedMinima alpha score) = _
  rw [meanDeviation_eq _ _ hne]
  have : (alpha.map fun b => some (devScore alpha b)) = (alpha.map (devScore alpha)).map some := by
    rw [List.map_map]; rfl
  rw [this, mapM_id_some]
  exact tiedMinima_eq alpha (devScore alpha) hne

private lemma circMedian_deviation (alpha : List ℝ) (init : List (Option ℝ)) (hne : alpha ≠ [])
    (hinit : init.length = alpha.length) (hc : allCoincide alpha (ones alpha) = false) (am : String) :
    circMedian alpha (ones alpha) "deviation" false am init
      = .ok ((devCands alpha).map fun l => l.map angmod2pi) ∧
    circMedian alpha (ones alpha) "deviation" true "all" init
      = .ok (((devCands alpha).bind fun l => circMean l (ones l)).map fun m => [angmod2pi m]) := by
  have h : medianCandidates alpha (ones alpha) "deviation" init = .ok (devCands alpha) := by
    unfold medianCandidates
    rw [if_neg (by push Not; exact ones_all alpha)]
    simp [medianDeviation_eq alpha init hne hinit]
  unfold circMedian
  rw [hc, h]
  constructor
  · rfl
  · have h2 : averageMedian (devCands alpha) true "all"
        = .ok ((devCands alpha).bind fun l => (circMean l (ones l)).map fun m => [m]) := by
      simp [averageMedian]
    show (averageMedian (devCands alpha) true "all").map _ = _
    rw [h2]
    cases devCands alpha with
    | none => rfl
    | some l =>
      simp only [Option.bind_some]
      cases circMean l (ones l) <;> rfl

open Classical in
/-- The candidates are exactly the observations whose mean deviation from the sample, rounded to five
decimals, is minimal; `nan` exactly when all observations tie. (The sample is not covered by the
`r ≈ 1` shortcut; see C85 for that one.) -/
theorem C18_deviation_candidates (alpha : List ℝ) (init : List (Option ℝ)) (hne : alpha ≠ [])
    (hinit : init.length = alpha.length) (hc : allCoincide alpha (ones alpha) = false)
    (am : String) (D : ℝ → ℝ)
    (hD : ∀ b, D b = round5 ((alpha.map fun a => π - |π - (|a - b|)|).sum / alpha.length)) :
    circMedian alpha (ones alpha) "deviation" false am init = .ok
      (if ∀ b ∈ alpha, ∀ b' ∈ alpha, D b = D b' then none
        else some ((alpha.filter fun b => decide (∀ b' ∈ alpha, D b ≤ D b')).map angmod2pi)) := by
  have : devScore alpha = D := by
    funext b; rw [hD]; rfl
  rw [(circMedian_deviation alpha init hne hinit hc am).1, devCands, this]
  have hiff : (∀ b ∈ alpha, ∀ b' ∈ alpha, D b ≤ D b') ↔ ∀ b ∈ alpha, ∀ b' ∈ alpha, D b = D b' :=
    ⟨fun h b hb b' hb' => le_antisymm (h b hb b' hb') (h b' hb' b hb),
      fun h b hb b' hb' => (h b hb b' hb').le⟩
  simp only [hiff]
  split_ifs <;> rfl

/-- With `return_average=True` the result is the circular mean of those candidates. -/
theorem C18_deviation_average (alpha : List ℝ) (init : List (Option ℝ)) (hne : alpha ≠ [])
    (hinit : init.length = alpha.length) (hc : allCoincide alpha (ones alpha) = false) :
    (circMedian alpha (ones alpha) "deviation" false "all" init = .ok none →
      circMedian alpha (ones alpha) "deviation" true "all" init = .ok none) ∧
    ∀ l, circMedian alpha (ones alpha) "deviation" false "all" init = .ok (some l) →
      circMedian alpha (ones alpha) "deviation" true "all" init
        = .ok ((circMean l (ones l)).map fun m => [m]) := by
  obtain ⟨h1, h2⟩ := circMedian_deviation alpha init hne hinit hc "all"
  rw [h1, h2]
  cases devCands alpha with
  | none => simp
  | some c =>
    simp only [Option.map_some, Except.ok.injEq, reduceCtorEq, false_implies, Option.some.injEq,
      Option.bind_some, true_and]
    rintro l rfl
    have h3 : circMean (c.map angmod2pi) (ones (c.map angmod2pi)) = circMean c (ones c) := by
      have : ones (c.map angmod2pi) = ones c := ones_map _ _
      rw [this]
      refine (C10_circMean_invariant c (ones c)).1 _ ?_
      rw [List.forall₂_map_right_iff]
      exact List.forall₂_same.2 fun x _ => (angmod2pi_cong x).symm
    rw [h3]
    cases h4 : circMean c (ones c) with
    | none => rfl
    | some m =>
      obtain ⟨h5, h6, _⟩ := C10_circMean_polar _ _ _ h4
      simp [angmod2pi_eq_self h5 h6]

/-- Every candidate minimises the mean arc-length deviation over *all* angles, up to the rounding
unit `1e-5`, for observations given in `[0,2π]`. (`d` is the arc-length distance.) -/
theorem C18_deviation_optimal (alpha : List ℝ) (init : List (Option ℝ)) (hne : alpha ≠ [])
    (hinit : init.length = alpha.length) (hc : allCoincide alpha (ones alpha) = false)
    (hr : ∀ a ∈ alpha, 0 ≤ a ∧ a ≤ 2 * π) (am : String) (l : List ℝ)
    (h : circMedian alpha (ones alpha) "deviation" false am init = .ok (some l))
    (d : ℝ → ℝ → ℝ) (hd : ∀ a b, IsArcDist (d a b) a b) (m θ : ℝ) (hm : m ∈ l) :
    (alpha.map fun a => d a m).sum / alpha.length
      ≤ (alpha.map fun a => d a θ).sum / alpha.length + 1 / 10 ^ 5 := by
  rw [(circMedian_deviation alpha init hne hinit hc am).1] at h
  have hn : (0 : ℝ) < alpha.length := by exact_mod_cast List.length_pos_of_ne_nil hne
  unfold devCands at h
  split_ifs at h with hall
  · simp at h
  simp only [Option.map_some, Except.ok.injEq, Option.some.injEq] at h
  subst h
  obtain ⟨c, hcm, rfl⟩ := List.mem_map.1 hm
  simp only [List.mem_filter, decide_eq_true_eq] at hcm
  obtain ⟨hca, hmin⟩ := hcm
  have hgeo : ∀ b ∈ alpha, (alpha.map fun a => geodesic a b) = alpha.map fun a => d a b := by
    intro b hb
    apply List.map_congr_left
    intro a ha
    obtain ⟨e, he, hE⟩ := C17_geodesic_isArcDist a b (by
      rw [abs_le]; have := hr a ha; have := hr b hb; constructor <;> linarith)
    simp [circDist] at he
    rw [he]
    exact isArcDist_unique hE (hd a b)
  have hdm : (alpha.map fun a => d a (angmod2pi c)) = alpha.map fun a => d a c := by
    apply List.map_congr_left
    intro a _
    exact isArcDist_unique (hd a (angmod2pi c))
      ((isArcDist_congr (CongMod.refl _ _) (angmod2pi_cong c).symm).1 (hd a c))
  obtain ⟨b, hb, hble⟩ := exists_data_le alpha hne d hd θ
  rw [hdm]
  have h1 := hmin b hb
  unfold devScore at h1
  rw [hgeo c hca, hgeo b hb] at h1
  have h2 := abs_le.1 (round5_bound ((alpha.map fun a => d a c).sum / alpha.length))
  have h3 := abs_le.1 (round5_bound ((alpha.map fun a => d a b).sum / alpha.length))
  have h4 : (alpha.map fun a => d a b).sum / alpha.length
      ≤ (alpha.map fun a => d a θ).sum / alpha.length := div_le_div_of_nonneg_right hble hn.le
  have h5 : (1 : ℝ) / 2 / 10 ^ 5 + 1 / 2 / 10 ^ 5 = 1 / 10 ^ 5 := by norm_num
  linarith

private lemma allCoincide_rotate (alpha : List ℝ) (t : ℝ) (f : ℝ → ℝ) (hf : ∀ a, SameDir (f a) (a + t)) :
    allCoincide (alpha.map f) (ones (alpha.map f)) = allCoincide alpha (ones alpha) := by
  have h1 : ones (alpha.map f) = ones alpha := ones_map _ _
  have h2 : circR (alpha.map f) (ones alpha) = circR alpha (ones alpha) := by
    rw [← C08_circR_rotate alpha (ones alpha) t]
    apply C08_circR_turns
    rw [List.forall₂_map_left_iff, List.forall₂_map_right_iff]
    exact List.forall₂_same.2 fun x _ => hf x
  unfold allCoincide
  rw [h1, h2]

/-- Rotation equivariance: rotating a sample given in `[0,2π)` and wrapping it back into `[0,2π)`
rotates the median by the same amount (modulo `2π`), and `nan` stays `nan`. -/
theorem C18_deviation_rotate (alpha : List ℝ) (init : List (Option ℝ)) (hne : alpha ≠ [])
    (hinit : init.length = alpha.length) (hc : allCoincide alpha (ones alpha) = false)
    (hr : ∀ a ∈ alpha, 0 ≤ a ∧ a < 2 * π) (t : ℝ) (beta : List ℝ)
    (hbeta : beta = alpha.map fun a => angmod2pi (a + t)) :
    (circMedian alpha (ones alpha) "deviation" true "all" init = .ok none ∧
      circMedian beta (ones beta) "deviation" true "all" init = .ok none) ∨
    ∃ m m', circMedian alpha (ones alpha) "deviation" true "all" init = .ok (some [m]) ∧
      circMedian beta (ones beta) "deviation" true "all" init = .ok (some [m']) ∧
      SameDir m' (m + t) := by
  subst hbeta
  set f : ℝ → ℝ := fun a => angmod2pi (a + t) with hf
  have hfs : ∀ a, SameDir (f a) (a + t) := fun a => angmod2pi_cong _
  have hc' := allCoincide_rotate alpha t f hfs
  rw [hc] at hc'
  rw [(circMedian_deviation alpha init hne hinit hc "all").2,
    (circMedian_deviation (alpha.map f) init (by simpa using hne) (by simpa using hinit) hc' "all").2]
  have hgeo : ∀ a ∈ alpha, ∀ b ∈ alpha, geodesic (f a) (f b) = geodesic a b := by
    intro a ha b hb
    obtain ⟨e, he, hE⟩ := C17_geodesic_isArcDist a b (by
      rw [abs_le]; have := hr a ha; have := hr b hb; constructor <;> linarith)
    have hfa : 0 ≤ f a ∧ f a < 2 * π := ⟨angmod2pi_nonneg _, angmod2pi_lt _⟩
    have hfb : 0 ≤ f b ∧ f b < 2 * π := ⟨angmod2pi_nonneg _, angmod2pi_lt _⟩
    obtain ⟨e', he', hE'⟩ := C17_geodesic_isArcDist (f a) (f b) (by
      rw [abs_le]; constructor <;> linarith)
    simp [circDist] at he he'
    rw [he, he']
    rw [isArcDist_congr (hfs a) (hfs b)] at hE'
    have : IsArcDist e (a + t) (b + t) := by
      obtain ⟨⟨k, hk⟩, hl⟩ := hE
      refine ⟨⟨k, by rw [hk]; congr 1; ring⟩, fun j => (hl j).trans (le_of_eq ?_)⟩
      congr 1; ring
    exact isArcDist_unique hE' this
  have hscore : ∀ b ∈ alpha, devScore (alpha.map f) (f b) = devScore alpha b := by
    intro b hb
    unfold devScore
    rw [List.map_map, List.length_map]
    congr 3
    apply List.map_congr_left
    intro a ha
    exact hgeo a ha b hb
  have hcand : devCands (alpha.map f) = (devCands alpha).map fun l => l.map f := by
    unfold devCands
    have hall : (∀ b ∈ alpha.map f, ∀ b' ∈ alpha.map f, devScore (alpha.map f) b ≤ devScore (alpha.map f) b')
        ↔ ∀ b ∈ alpha, ∀ b' ∈ alpha, devScore alpha b ≤ devScore alpha b' := by
      simp only [List.forall_mem_map]
      constructor
      · intro h b hb b' hb'
        rw [← hscore b hb, ← hscore b' hb']; exact h b hb b' hb'
      · intro h b hb b' hb'
        rw [hscore b hb, hscore b' hb']; exact h b hb b' hb'
    simp only [hall]
    split_ifs
    · rfl
    · rw [Option.map_some, List.filter_map]
      congr 2
      apply List.filter_congr
      intro b hb
      simp only [Function.comp, List.forall_mem_map, decide_eq_decide]
      constructor
      · intro h b' hb'
        rw [← hscore b hb, ← hscore b' hb']; exact h b' hb'
      · intro h b' hb'
        rw [hscore b hb, hscore b' hb']; exact h b' hb'
  rw [hcand]
  cases hdc : devCands alpha with
  | none => left; exact ⟨rfl, rfl⟩
  | some l =>
    simp only [Option.map_some, Option.bind_some]
    have h1 : ones (l.map f) = ones l := ones_map _ _
    have h2 : circMean (l.map f) (ones l) = circMean (l.map (· + t)) (ones l) := by
      refine (C10_circMean_invariant (l.map (· + t)) (ones l)).1 _ ?_
      rw [List.forall₂_map_left_iff, List.forall₂_map_right_iff]
      exact List.forall₂_same.2 fun x _ => (hfs x).symm
    rw [h1, h2]
    obtain ⟨g1, g2⟩ := C10_circMean_rotate l (ones l) t
    cases hm : circMean l (ones l) with
    | none => left; rw [g1 hm]; exact ⟨rfl, rfl⟩
    | some m =>
      right
      obtain ⟨m', hm', _, _, hs⟩ := g2 m hm
      rw [hm']
      refine ⟨_, _, rfl, rfl, ?_⟩
      exact ((angmod2pi_cong m').trans hs).trans ((angmod2pi_cong m).symm.add_right t)

/-- A sample that is not covered by the shortcut: `{0, 1/2, 1}` has `r = (1 + 2 cos(1/2))/3`. -/
example : allCoincide [0, π] (ones [0, π]) = false := by
  have : circR [0, π] (ones [0, π]) = some 0 := by
    rw [(C07_circR_is_mean_vector_length _ _ _).1]; simp [ones]
  unfold allCoincide
  rw [this]
  simp [isclose, rtolDefault]
  norm_num

/-! ## C19 -/

open Classical in
/-- With `method='count'` the candidates are exactly the observations minimising
`|2·right + exact - n|`, where `right` counts the observations strictly inside the half circle to
the right and `exact` those (numerically) on the diameter; `nan` exactly when all tie. -/
theorem C19_count_candidates (alpha : List ℝ) (init : List (Option ℝ)) (hne : alpha ≠ [])
    (hc : allCoincide alpha (ones alpha) = false) (am : String) (D : ℝ → ℝ)
    (hD : ∀ b, D b = |2 * ((alpha.countP fun a => decide (0 < round5 (angmod2pi (a - b))) &&
        decide (round5 (angmod2pi (a - b)) < round5 π) : ℕ) : ℝ)
      + ((alpha.countP fun a => decide (isclose (round5 (angmod2pi (a - b))) 0 rtolDefault atolDefault) ||
        decide (isclose (round5 (angmod2pi (a - b))) (round5 π) rtolDefault atolDefault) : ℕ) : ℝ) - alpha.length|) :
    circMedian alpha (ones alpha) "count" false am init = .ok
      (if ∀ b ∈ alpha, ∀ b' ∈ alpha, D b = D b' then none
        else some ((alpha.filter fun b => decide (∀ b' ∈ alpha, D b ≤ D b')).map angmod2pi)) := by
  have hDD : countDiff alpha = D := by
    funext b
    rw [hD]; unfold countDiff countRight countExact countRotated
    simp only
    congr 1; ring
  have h : medianCandidates alpha (ones alpha) "count" init = circMedianCount alpha := by
    unfold medianCandidates
    rw [if_neg (by push Not; exact ones_all alpha)]
    simp
  unfold circMedian
  rw [hc, h]
  unfold circMedianCount
  rw [hDD, tiedMinima_eq alpha D hne]
  have hiff : (∀ b ∈ alpha, ∀ b' ∈ alpha, D b ≤ D b') ↔ ∀ b ∈ alpha, ∀ b' ∈ alpha, D b = D b' :=
    ⟨fun h b hb b' hb' => le_antisymm (h b hb b' hb') (h b' hb' b hb),
      fun h b hb b' hb' => (h b hb b' hb').le⟩
  simp only [hiff]
  show Except.ok _ = _
  congr 1
  split_ifs <;> rfl

private lemma pi_round : round5 π = 314159 / 10 ^ 5 := by
  unfold round5
  have : roundEven (π * 10 ^ 5) = 314159 := by
    apply roundEven_of_abs_lt
    have h1 := Real.pi_gt_d6
    have h2 := Real.pi_lt_d6
    rw [abs_lt]; constructor <;> push_cast <;> norm_num at * <;> linarith
  rw [this]; norm_num

/-- When no rounded difference falls within `4e-5` of `round(π, 5)` without being equal to it, the
minimised quantity is the difference between the number of observations strictly on the right
(`0 < ρ < π` after rounding) and strictly on the left (`ρ > π`) of the diameter. -/
theorem C19_imbalance (alpha : List ℝ) (b : ℝ)
    (hsep : ∀ a ∈ alpha, round5 (angmod2pi (a - b)) = round5 π ∨
      4 / 10 ^ 5 < |round5 (angmod2pi (a - b)) - round5 π|) :
    |2 * ((alpha.countP fun a => decide (0 < round5 (angmod2pi (a - b))) &&
        decide (round5 (angmod2pi (a - b)) < round5 π) : ℕ) : ℝ)
      + ((alpha.countP fun a => decide (isclose (round5 (angmod2pi (a - b))) 0 rtolDefault atolDefault) ||
        decide (isclose (round5 (angmod2pi (a - b))) (round5 π) rtolDefault atolDefault) : ℕ) : ℝ) - alpha.length| =
    |((alpha.countP fun a => decide (0 < round5 (angmod2pi (a - b))) &&
        decide (round5 (angmod2pi (a - b)) < round5 π) : ℕ) : ℝ)
      - (alpha.countP fun a => decide (round5 π < round5 (angmod2pi (a - b))) : ℕ)| := by
  change |2 * (countRight alpha b : ℝ) + countExact alpha b - alpha.length| = _
  have hn : (alpha.length : ℝ) = (countRight alpha b : ℝ) + countExact alpha b +
      (alpha.countP fun a => decide (round5 π < round5 (angmod2pi (a - b))) : ℕ) := by
    unfold countRight countExact countRotated
    have hpos : (0 : ℝ) < round5 π := by rw [pi_round]; norm_num
    have htol : ∀ x : ℝ, isclose x (round5 π) rtolDefault atolDefault → |x - round5 π| < 4 / 10 ^ 5 := by
      intro x hx
      unfold isclose rtolDefault atolDefault at hx
      refine lt_of_le_of_lt hx ?_
      rw [abs_of_pos hpos, pi_round]; norm_num
    have htol0 : ∀ y : ℝ, isclose (round5 y) 0 rtolDefault atolDefault ↔ round5 y = 0 := by
      intro y
      constructor
      · intro h
        apply round5_eq_zero_of_small
        unfold isclose rtolDefault atolDefault at h
        simp only [sub_zero, abs_zero, mul_zero, add_zero] at h
        exact lt_of_le_of_lt h (by norm_num)
      · intro h; rw [h]; simp [isclose, rtolDefault, atolDefault]
    induction alpha with
    | nil => simp
    | cons a as ih =>
      have ih' := ih fun x hx => hsep x (by simp [hx])
      simp only [List.countP_cons, List.length_cons]
      set ρ := round5 (angmod2pi (a - b)) with hρ
      have h0 : 0 ≤ ρ := round5_nonneg (angmod2pi_nonneg _)
      have hz := htol0 (angmod2pi (a - b))
      rw [← hρ] at hz
      have hpi : isclose ρ (round5 π) rtolDefault atolDefault ↔ ρ = round5 π := by
        constructor
        · intro h
          rcases hsep a (by simp) with h' | h'
          · exact h'
          · exact absurd (htol ρ h) (not_lt.2 h'.le)
        · intro h; rw [h]; simp [isclose, rtolDefault, atolDefault]; positivity
      push_cast
      rw [ih']
      simp only [hz, hpi, Bool.and_eq_true, Bool.or_eq_true, decide_eq_true_eq]
      rcases h0.eq_or_lt with e0 | l0
      · rw [if_neg (by rintro ⟨h, _⟩; linarith), if_pos (.inl e0.symm), if_neg (by linarith)]
        push_cast; ring
      · rcases lt_trichotomy ρ (round5 π) with l1 | e1 | g1
        · rw [if_pos ⟨l0, l1⟩, if_neg (by rintro (h | h) <;> linarith), if_neg (by linarith)]
          push_cast; ring
        · rw [if_neg (by rintro ⟨_, h⟩; linarith), if_pos (.inr e1), if_neg (by linarith)]
          push_cast; ring
        · rw [if_neg (by rintro ⟨_, h⟩; linarith), if_neg (by rintro (h | h) <;> linarith),
            if_pos g1]
          push_cast; ring
  rw [hn]
  unfold countRight countExact countRotated
  congr 1; ring

/-- Without that separation the tolerance of `np.isclose` makes an observation count twice: a point
`2e-5` short of the opposite direction counts as strictly right *and* as on the diameter. -/
theorem C19_double_count :
    0 < round5 (angmod2pi (314157 / 10 ^ 5 - 0)) ∧
    round5 (angmod2pi (314157 / 10 ^ 5 - 0)) < round5 π ∧
    isclose (round5 (angmod2pi (314157 / 10 ^ 5 - 0))) (round5 π) rtolDefault atolDefault := by
  have hrot : round5 (angmod2pi (314157 / 10 ^ 5 - 0)) = 314157 / 10 ^ 5 := by
    have h1 := Real.pi_gt_d6
    rw [sub_zero, angmod2pi_eq_self (by positivity) (by norm_num at *; linarith)]
    have := round5_of_grid 314157
    push_cast at this
    exact this
  rw [hrot, pi_round]
  refine ⟨by norm_num, by norm_num, ?_⟩
  unfold isclose rtolDefault atolDefault
  norm_num [abs_of_pos, abs_of_neg]

/-! ## C85: dependence on the order of the observations -/

private lemma devScore_perm {alpha beta : List ℝ} (h : alpha.Perm beta) : devScore alpha = devScore beta := by
  funext b
  unfold devScore
  rw [(h.map _).sum_eq, h.length_eq]

private lemma devCands_perm {alpha beta : List ℝ} (h : alpha.Perm beta) :
    (devCands alpha = none ∧ devCands beta = none) ∨
    ∃ l l', devCands alpha = some l ∧ devCands beta = some l' ∧ l.Perm l' := by
  unfold devCands
  rw [devScore_perm h]
  simp only [h.mem_iff]
  split_ifs with h1
  · left; exact ⟨rfl, rfl⟩
  · right; exact ⟨_, _, rfl, rfl, h.filter _⟩

private lemma zip_ones_perm {alpha beta : List ℝ} (h : alpha.Perm beta) :
    (alpha.zip (ones alpha)).Perm (beta.zip (ones beta)) := by
  have e : ∀ l : List ℝ, l.zip (ones l) = l.map fun a => (a, (1 : ℝ)) := by
    intro l
    unfold ones
    induction l with
    | nil => rfl
    | cons a as ih => simp only [List.map_cons, List.zip_cons_cons, ih]
  rw [e, e]; exact h.map _

private lemma circR_perm_ones {alpha beta : List ℝ} (h : alpha.Perm beta) :
    circR alpha (ones alpha) = circR beta (ones beta) :=
  C08_circR_perm _ _ _ _ (length_ones _).symm (length_ones _).symm (zip_ones_perm h)

private lemma circMean_perm_ones {alpha beta : List ℝ} (h : alpha.Perm beta) :
    circMean alpha (ones alpha) = circMean beta (ones beta) :=
  ((C10_circMean_invariant alpha (ones alpha)).2.1 _ _ (length_ones _).symm (length_ones _).symm
    (zip_ones_perm h)).symm

/-- The averaged deviation median does not depend on the order of the observations when the
resultant length is not within `1e-5 + 1e-12` of 1. -/
theorem C85_median_perm (alpha beta : List ℝ) (init init' : List (Option ℝ)) (hne : alpha ≠ [])
    (hinit : init.length = alpha.length) (hinit' : init'.length = beta.length) (hp : alpha.Perm beta)
    (r : ℝ) (hr : circR alpha (ones alpha) = some r) (hlt : r < 1 - (1 / 10 ^ 5 + 1 / 10 ^ 12)) :
    circMedian alpha (ones alpha) "deviation" true "all" init
      = circMedian beta (ones beta) "deviation" true "all" init' := by
  have hnc : ∀ l : List ℝ, circR l (ones l) = some r → allCoincide l (ones l) = false := by
    intro l hl
    unfold allCoincide
    rw [hl]
    simp only [decide_eq_false_iff_not, isclose, rtolDefault, not_le, abs_one, mul_one]
    rw [abs_of_neg (by norm_num at *; linarith)]
    linarith
  have hr' := hr
  rw [circR_perm_ones hp] at hr'
  have hne' : beta ≠ [] := fun h => hne (by rw [h] at hp; exact List.perm_nil.1 hp)
  rw [(circMedian_deviation alpha init hne hinit (hnc _ hr) "all").2,
    (circMedian_deviation beta init' hne' hinit' (hnc _ hr') "all").2]
  rcases devCands_perm hp with ⟨h1, h2⟩ | ⟨l, l', h1, h2, h3⟩
  · rw [h1, h2]
  · rw [h1, h2]
    simp only [Option.bind_some]
    rw [circMean_perm_ones h3]

/-- Within that distance of 1 the "all points coincide" shortcut returns the first observation, so
the result depends on the order: the median of `{0, 0.001}` is whichever is listed first. -/
theorem C85_median_order_dependent (init : List (Option ℝ)) :
    circMedian [0, 1 / 1000] (ones [0, 1 / 1000]) "deviation" true "all" init = .ok (some [0]) ∧
    circMedian [1 / 1000, 0] (ones [1 / 1000, 0]) "deviation" true "all" init
      = .ok (some [1 / 1000]) := by
  have hco : allCoincide [0, 1 / 1000] (ones [0, 1 / 1000]) = true := by
    obtain ⟨r, hr, h0, h1⟩ := C07_circR_range [0, 1 / 1000] (ones [0, 1 / 1000]) rfl (by simp [ones])
      (by simp [ones])
    unfold allCoincide
    rw [hr]
    simp only [decide_eq_true_eq, isclose, rtolDefault, abs_one, mul_one]
    rw [abs_of_nonpos (by linarith)]
    have hre : (1 + cos (1 / 1000)) / 2 ≤ r := by
      rw [(C07_circR_is_mean_vector_length _ _ _).1] at hr
      rw [hr.2]
      refine le_trans (le_of_eq ?_) (Complex.re_le_norm _)
      simp only [ones, List.map_cons, List.map_nil, List.zipWith_cons_cons, List.zipWith_nil_left,
        List.sum_cons, List.sum_nil, add_zero]
      rw [Complex.div_ofReal_re, Complex.add_re, Complex.re_ofReal_mul, Complex.re_ofReal_mul, exp_re,
        exp_re]
      simp; norm_num
    have := one_sub_sq_div_two_le_cos (x := 1 / 1000)
    norm_num at *
    linarith
  have hco' : allCoincide [1 / 1000, 0] (ones [1 / 1000, 0]) = true := by
    rw [← hco]; unfold allCoincide
    rw [circR_perm_ones (List.Perm.swap (0 : ℝ) (1 / 1000) [])]
  constructor
  · unfold circMedian; rw [if_pos hco]
  · unfold circMedian; rw [if_pos hco']

end Verif.Props
