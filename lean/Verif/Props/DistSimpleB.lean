import Verif.Spec.Sample
import Verif.Props.DistSimple
import Mathlib.Analysis.SpecialFunctions.Log.Deriv
import Mathlib.MeasureTheory.Measure.Lebesgue.Basic

/-! # Properties C83, C100, C101 (cardioid part), C102: fitting, median and sampling of the
triangular and cardioid distributions -/

set_option autoImplicit false

namespace Verif

open Real Verif.Spec MeasureTheory

/-! ## C100: `median()` is the quantile of 1/2 counted from 0 -/

theorem tri_median_raw {rho : ℝ} (h0 : 1 / 10 ^ 12 < rho) (h1 : rho ≤ 4 / π ^ 2) :
    distMedian triangular rho = some π := by
  have hpi := pi_gt_three
  have hr : 0 < rho := lt_trans (by positivity) h0
  have hp := triP_le h1
  have hraw : triPpfRaw (1 / 2) rho = π := by
    unfold triPpfRaw
    rw [if_neg (by rw [isclose_zero_iff, abs_of_pos hr]; exact not_le.mpr h0), if_pos le_rfl]
    simp only
    have hd : (-(4 + π ^ 2 * rho) / π) ^ 2 - 4 * rho * (8 * (1 / 2))
        = ((4 - π ^ 2 * rho) / π) ^ 2 := by field_simp; ring
    rw [hd, max_eq_left (sq_nonneg _), sqrt_sq (div_nonneg (by linarith) (by linarith))]
    field_simp
    ring
  have hcl : triPpf (1 / 2) rho = π := by
    have he := floatEps_bounds
    have : (1 : ℝ) / 10 ^ 15 < 1 := by norm_num
    unfold triPpf clip
    rw [hraw, max_eq_left (by linarith), min_eq_left (by linarith [he.2])]
  unfold distMedian distPpf
  rw [if_neg (not_not.mpr (show triangular.argcheck rho from ⟨hr.le, h1⟩)), if_neg (by norm_num),
    if_neg (by norm_num), if_pos ⟨by norm_num, by norm_num⟩]
  show some (triPpf (1 / 2) rho) = _
  rw [hcl]

/-- **C100.** `median()` of a triangular distribution is `π`, exactly opposite its mean direction 0:
of all directions it is not the one with least expected arc distance (the circular median of the
library's own descriptive functions); the expected arc distance from `π` is `π/2 + π³ρ/24`, that from
0 only `π/2 - π³ρ/24`. (For `x` in `[0, 2π]` the arc distances from `π` and from 0 are `|π - x|` and
`π - |π - x|`.) -/
theorem C100_median_antipodal {rho : ℝ} (h0 : 1 / 10 ^ 12 < rho) (h1 : rho ≤ 4 / π ^ 2) :
    distMedian triangular rho = some π ∧
    distMean (distTrigMoment triangular 1 rho) = some 0 ∧
    (∫ x in (0 : ℝ)..(2 * π), triangular.pdf x rho * |π - x|) = π / 2 + π ^ 3 * rho / 24 ∧
    (∫ x in (0 : ℝ)..(2 * π), triangular.pdf x rho * (π - |π - x|)) = π / 2 - π ^ 3 * rho / 24 := by
  have hpi := pi_pos
  have hr : 0 ≤ rho := le_trans (by positivity) h0.le
  have hA : (∫ x in (0 : ℝ)..(2 * π), triPdf x rho * |π - x|) = π / 2 + π ^ 3 * rho / 24 := by
    have hi := fun a b : ℝ => ((by unfold triPdf; fun_prop :
      Continuous fun x : ℝ => triPdf x rho * |π - x|).intervalIntegrable (μ := volume) a b)
    rw [← intervalIntegral.integral_add_adjacent_intervals (hi 0 π) (hi π (2 * π))]
    set A := (4 - π ^ 2 * rho) / (8 * π)
    have hd : ∀ t : ℝ, HasDerivAt (fun t : ℝ => -(A * (π - t) ^ 2 / 2 + rho / 4 * (π - t) ^ 3 / 3))
        (A * (π - t) + rho / 4 * (π - t) ^ 2) t := by
      intro t
      have hs : HasDerivAt (fun t : ℝ => π - t) (-1) t := by
        simpa using (hasDerivAt_id t).const_sub π
      have h := (((hs.pow 2).const_mul A).div_const 2).add
        (((hs.pow 3).const_mul (rho / 4)).div_const 3)
      refine h.neg.congr_deriv ?_
      norm_num; ring
    have hd' : ∀ t : ℝ, HasDerivAt (fun t : ℝ => A * (t - π) ^ 2 / 2 + rho / 4 * (t - π) ^ 3 / 3)
        (A * (t - π) + rho / 4 * (t - π) ^ 2) t := by
      intro t
      have hs : HasDerivAt (fun t : ℝ => t - π) 1 t := by
        simpa using (hasDerivAt_id t).sub_const π
      have h := (((hs.pow 2).const_mul A).div_const 2).add
        (((hs.pow 3).const_mul (rho / 4)).div_const 3)
      refine h.congr_deriv ?_
      norm_num; ring
    have e1 : ∫ x in (0 : ℝ)..π, triPdf x rho * |π - x|
        = ∫ x in (0 : ℝ)..π, (A * (π - x) + rho / 4 * (π - x) ^ 2) := by
      apply intervalIntegral.integral_congr
      intro t ht
      rw [Set.uIcc_of_le hpi.le] at ht
      simp only
      unfold triPdf
      rw [abs_of_nonneg (by linarith [ht.2])]
      simp only [A]; field_simp; ring
    have e2 : ∫ x in π..(2 * π), triPdf x rho * |π - x|
        = ∫ x in π..(2 * π), (A * (x - π) + rho / 4 * (x - π) ^ 2) := by
      apply intervalIntegral.integral_congr
      intro t ht
      rw [Set.uIcc_of_le (by linarith)] at ht
      simp only
      unfold triPdf
      rw [abs_of_nonpos (by linarith [ht.1])]
      simp only [A]; field_simp; ring
    rw [e1, e2, intervalIntegral.integral_eq_sub_of_hasDerivAt (fun t _ => hd t)
      ((by fun_prop : Continuous _).intervalIntegrable _ _),
      intervalIntegral.integral_eq_sub_of_hasDerivAt (fun t _ => hd' t)
      ((by fun_prop : Continuous _).intervalIntegrable _ _)]
    simp only [A]
    field_simp
    ring
  refine ⟨tri_median_raw h0 h1, (C72_resultant hr h1).2.2 h0, hA, ?_⟩
  have hsplit : (∫ x in (0 : ℝ)..(2 * π), triPdf x rho * (π - |π - x|))
      = π * (∫ x in (0 : ℝ)..(2 * π), triPdf x rho)
        - ∫ x in (0 : ℝ)..(2 * π), triPdf x rho * |π - x| := by
    have hc := triPdf_continuous rho
    rw [← intervalIntegral.integral_const_mul, ← intervalIntegral.integral_sub
      ((by fun_prop : Continuous _).intervalIntegrable _ _)
      ((by fun_prop : Continuous _).intervalIntegrable _ _)]
    congr 1; funext x; ring
  show (∫ x in (0 : ℝ)..(2 * π), triPdf x rho * (π - |π - x|)) = _
  rw [hsplit, hA, (tri_isCircularDensity hr h1).mass]; ring

/-- **C100.** What holds for every family: `median()` is the quantile of 1/2, so half of the mass lies
between 0 and it (up to the accuracy of `ppf`). -/
theorem C100_median_half {σ : Type} (D : Family σ) (s : σ) {tol : ℝ}
    (h : InvertsCdf (fun q => distPpf D q s) (fun x => distCdf D x s) tol) :
    ∃ m c, distMedian D s = some m ∧ 0 ≤ m ∧ m ≤ 2 * π ∧ distCdf D m s = some c ∧
      |c - 1 / 2| ≤ tol :=
  h.1 (1 / 2) (by norm_num) (by norm_num)

/-! ## C102: sampling by inversion -/

/-- A monotone distribution function and an approximate inverse give samples whose law is off by no
more than the error of the inverse. -/
theorem law_of_inverse {F S : ℝ → ℝ} {eps x : ℝ} (he : 0 ≤ eps) (hx0 : 0 ≤ x) (hx1 : x ≤ 2 * π)
    (hmono : ∀ a b, 0 ≤ a → a ≤ b → b ≤ 2 * π → F a ≤ F b) (hF0 : 0 ≤ F x) (hF1 : F x ≤ 1)
    (hS : ∀ u, 0 ≤ u → u < 1 → 0 ≤ S u ∧ S u ≤ 2 * π ∧ |F (S u) - u| ≤ eps) :
    |volume.real {u | 0 ≤ u ∧ u < 1 ∧ S u ≤ x} - F x| ≤ eps := by
  have hsub1 : {u | 0 ≤ u ∧ u < 1 ∧ S u ≤ x} ⊆ Set.Icc 0 (F x + eps) := by
    rintro u ⟨a, b, c⟩
    obtain ⟨s0, s1, s2⟩ := hS u a b
    have := hmono _ _ s0 c hx1
    rw [abs_le] at s2
    exact ⟨a, by linarith [s2.1]⟩
  have hsub2 : Set.Ico 0 (F x - eps) ⊆ {u | 0 ≤ u ∧ u < 1 ∧ S u ≤ x} := by
    rintro u ⟨a, b⟩
    have hu1 : u < 1 := by linarith
    obtain ⟨s0, s1, s2⟩ := hS u a hu1
    refine ⟨a, hu1, ?_⟩
    by_contra hc
    have := hmono _ _ hx0 (not_le.mp hc).le s1
    rw [abs_le] at s2
    linarith [s2.2]
  have hfin : volume {u | 0 ≤ u ∧ u < 1 ∧ S u ≤ x} ≠ ⊤ :=
    ((measure_mono hsub1).trans_lt (by rw [Real.volume_Icc]; exact ENNReal.ofReal_lt_top)).ne
  have h1 : volume.real {u | 0 ≤ u ∧ u < 1 ∧ S u ≤ x} ≤ F x + eps := by
    refine (measureReal_mono hsub1 (by rw [Real.volume_Icc]; exact ENNReal.ofReal_ne_top)).trans ?_
    rw [Real.volume_real_Icc_of_le (by linarith)]; linarith
  have h2 : F x - eps ≤ volume.real {u | 0 ≤ u ∧ u < 1 ∧ S u ≤ x} := by
    refine le_trans ?_ (measureReal_mono hsub2 hfin)
    rw [Real.volume_real_Ico]
    have := le_max_left (F x - eps - 0) 0
    linarith
  rw [abs_le]; constructor <;> linarith

/-- **C102.** Samples of the triangular distribution: the set of uniform draws that produce a sample
in `[0, x]` has measure equal to the probability of `[0, x]`, up to `1e-12`. -/
theorem C102_triangular {rho x : ℝ} (h0 : 0 ≤ rho) (h1 : rho ≤ 4 / π ^ 2) (hx0 : 0 ≤ x)
    (hx1 : x ≤ 2 * π) :
    |volume.real {u | 0 ≤ u ∧ u < 1 ∧ triRvs u rho ≤ x}
      - ∫ t in (0 : ℝ)..x, triangular.pdf t rho| ≤ 1 / 10 ^ 12 := by
  have hpi := pi_pos
  have h00 : triCdf 0 rho = 0 := by rw [triCdf_left le_rfl hpi.le]; simp
  have h22 : triCdf (2 * π) rho = 1 := by unfold triCdf; simp
  show |_ - ∫ t in (0 : ℝ)..x, triPdf t rho| ≤ _
  rw [← triCdf_eq_integral hx0 hx1]
  have a := (triCdf_sub h0 h1 le_rfl hx0 hx1).1
  have b := (triCdf_sub h0 h1 hx0 hx1 le_rfl).1
  refine law_of_inverse (F := fun y => triCdf y rho) (S := fun u => triRvs u rho) (by positivity) hx0
    hx1 (fun a b ha hab hb => ?_) (by linarith) (by linarith) ?_
  · have := (triCdf_sub h0 h1 ha hab hb).1
    linarith
  · intro u hu0 hu1
    obtain ⟨p, q, r, _⟩ := triPpf_spec h0 h1 hu0 hu1.le
    exact ⟨p, q, r.trans (by norm_num)⟩

/-- **C102.** Samples of the cardioid distribution, any `mu`: the same, up to `2^-32`. -/
theorem C102_cardioid {mu rho x : ℝ} (h0 : 0 ≤ rho) (h1 : rho ≤ 1 / 2) (hx0 : 0 ≤ x)
    (hx1 : x ≤ 2 * π) :
    (∀ u, 0 ≤ u → u < 1 → ∃ y, cardRvs u mu rho = .ok y ∧ 0 ≤ y ∧ y ≤ 2 * π) ∧
    |volume.real {u | 0 ≤ u ∧ u < 1 ∧ ∃ y, cardRvs u mu rho = .ok y ∧ y ≤ x}
      - ∫ t in (0 : ℝ)..x, cardioid.pdf t (mu, rho)| ≤ 1 / 2 ^ 32 := by
  have hpi := pi_gt_three
  have hcong := pymod_cong mu (2 * π)
  have hmu : ∀ y, cardCdf y (pymod mu (2 * π)) rho = cardCdf y mu rho := fun y =>
    cardCdf_congr_mu (sin_eq_of_sameDir hcong) (cos_eq_of_sameDir hcong)
  set S : ℝ → ℝ := fun u => if isclose rho 0 rtolDefault (1 / 10 ^ 15) then 2 * π * u
    else cardSolve u (pymod mu (2 * π)) rho with hSdef
  have hS : ∀ u, cardRvs u mu rho = .ok (S u) := by
    intro u
    unfold cardRvs
    rw [if_neg (not_not.mpr ⟨h0, h1⟩)]
    simp only [hSdef]
    split_ifs <;> rfl
  have hspec : ∀ u, 0 ≤ u → u < 1 → 0 ≤ S u ∧ S u ≤ 2 * π ∧
      |cardCdf (S u) mu rho - u| ≤ 1 / 2 ^ 32 := by
    intro u hu0 hu1
    simp only [hSdef]
    split_ifs with hc
    · rw [isclose_zero_iff, abs_of_nonneg h0] at hc
      refine ⟨by positivity, by nlinarith, ?_⟩
      have e : cardCdf (2 * π * u) mu rho - u
          = rho * (sin (2 * π * u - mu) + sin mu) / π := by
        unfold cardCdf; field_simp; ring
      rw [e, abs_div, abs_mul, abs_of_nonneg h0, abs_of_pos pi_pos, div_le_iff₀ pi_pos]
      have hb : |sin (2 * π * u - mu) + sin mu| ≤ 2 :=
        (abs_add_le _ _).trans (by linarith [abs_sin_le_one (2 * π * u - mu), abs_sin_le_one mu])
      have hm : rho * |sin (2 * π * u - mu) + sin mu| ≤ 1 / 10 ^ 15 * 2 :=
        mul_le_mul hc hb (abs_nonneg _) (by positivity)
      have : (1 : ℝ) / 10 ^ 15 * 2 ≤ 1 / 2 ^ 32 * 3 := by norm_num
      nlinarith
    · obtain ⟨a, b, c⟩ := cardSolve_spec (mu := pymod mu (2 * π)) h0 h1 hu0 hu1
      rw [hmu] at c
      exact ⟨a, b, c⟩
  refine ⟨fun u hu0 hu1 => ⟨S u, hS u, (hspec u hu0 hu1).1, (hspec u hu0 hu1).2.1⟩, ?_⟩
  have hset : {u | 0 ≤ u ∧ u < 1 ∧ ∃ y, cardRvs u mu rho = .ok y ∧ y ≤ x}
      = {u | 0 ≤ u ∧ u < 1 ∧ S u ≤ x} := by
    ext u
    simp only [Set.mem_ofPred_eq, hS]
    constructor
    · rintro ⟨a, b, y, hy, hyx⟩
      cases hy
      exact ⟨a, b, hyx⟩
    · rintro ⟨a, b, c⟩
      exact ⟨a, b, _, rfl, c⟩
  rw [hset]
  show |_ - ∫ t in (0 : ℝ)..x, cardPdf t mu rho| ≤ _
  rw [← cardCdf_eq_integral]
  have a := (cardCdf_sub mu h0 h1 le_rfl hx0 hx1).1
  have b := (cardCdf_sub mu h0 h1 hx0 hx1 le_rfl).1
  rw [cardCdf_zero] at a
  rw [cardCdf_two_pi] at b
  refine law_of_inverse (F := fun y => cardCdf y mu rho) (by positivity) hx0 hx1
    (fun a b ha hab hb => ?_) (by linarith) (by linarith) hspec
  have := (cardCdf_sub mu h0 h1 ha hab hb).1
  linarith

/-! ## C83: estimators -/

theorem clip_mem {v lo hi : ℝ} (h : lo ≤ hi) : lo ≤ clip v lo hi ∧ clip v lo hi ≤ hi := by
  unfold clip
  exact ⟨le_min (le_max_right _ _) h, min_le_right _ _⟩

theorem broadcastTo_some {n : ℕ} {w w' : List ℝ} (h : broadcastTo n w = some w') :
    w'.length = n ∧ ((w.length = n ∧ w' = w) ∨ ∃ v, w = [v] ∧ w' = List.replicate n v) := by
  unfold broadcastTo at h
  split_ifs at h with hn
  · cases h; exact ⟨hn, Or.inl ⟨hn, rfl⟩⟩
  · split at h
    · rename_i v
      cases h; exact ⟨by simp, Or.inr ⟨v, rfl, rfl⟩⟩
    · cases h

theorem fitWeights_ok {n : ℕ} {weights : Option (List ℝ)} {w : List ℝ}
    (h : fitWeights n weights = .ok w) : w.length = n ∧ (∀ v ∈ w, 0 ≤ v) ∧ 0 < w.sum := by
  unfold fitWeights at h
  rcases weights with _ | w0
  · simp only at h
    split_ifs at h with hn
    cases h
    refine ⟨by simp, ?_, ?_⟩
    · intro v hv
      rw [List.eq_of_mem_replicate hv]; norm_num
    · rw [List.sum_replicate]; simp; omega
  · simp only at h
    split_ifs at h with h1
    rcases hb : broadcastTo n w0 with _ | w'
    · rw [hb] at h; cases h
    · rw [hb] at h
      simp only at h
      split_ifs at h with h3
      cases h
      obtain ⟨hl, hb⟩ := broadcastTo_some hb
      refine ⟨hl, ?_, not_le.mp h3⟩
      intro v hv
      by_contra hc
      rcases hb with ⟨-, e⟩ | ⟨u, e, e'⟩
      · exact h1 ⟨v, e ▸ hv, not_le.mp hc⟩
      · rw [e'] at hv
        exact h1 ⟨v, by rw [e, List.eq_of_mem_replicate hv]; simp, not_le.mp hc⟩

theorem fitWeights_full {n : ℕ} {weights : Option (List ℝ)} {w : List ℝ}
    (h : fitWeights n weights = .ok w) : fullWeights n weights = w := by
  unfold fitWeights at h
  rcases weights with _ | w0
  · simp only at h
    split_ifs at h
    simpa [fullWeights] using h
  · simp only at h
    split_ifs at h
    rcases hb : broadcastTo n w0 with _ | w'
    · rw [hb] at h; cases h
    · rw [hb] at h
      simp only at h
      split_ifs at h
      cases h
      rcases broadcastTo_some hb with ⟨-, ⟨hl, rfl⟩ | ⟨v, rfl, rfl⟩⟩
      · rcases w with _ | ⟨a, _ | ⟨b, t⟩⟩
        · rfl
        · subst hl; rfl
        · rfl
      · rfl

theorem tri_hi : (0 : ℝ) < 4 / π ^ 2 - 1 / 10 ^ 12 := by
  have : (1 : ℝ) / 10 ^ 12 < 4 / 10 := by norm_num
  have h2 : (4 : ℝ) / 10 ≤ 4 / π ^ 2 := by
    apply div_le_div_of_nonneg_left (by norm_num) (by positivity)
    nlinarith [pi_lt_d2, pi_pos]
  linarith

/-- **C83.** Every estimate of `triangular.fit`, by either method, is accepted by the distribution
itself, provided the root finder stays in its bracket. -/
theorem C83_triangular (brentq : (ℝ → ℝ) → ℝ → ℝ → ℝ)
    (hb : ∀ f a b, a ≤ b → a ≤ brentq f a b ∧ brentq f a b ≤ b) (data : List ℝ)
    (weights : Option (List ℝ)) (method : String) (rho : ℝ)
    (h : triFit brentq data weights method = .ok rho) : triangular.argcheck rho := by
  have hhi := tri_hi
  have h4 : (0 : ℝ) ≤ 4 / π ^ 2 := by positivity
  have h12 : (0 : ℝ) < 1 / 10 ^ 12 := by positivity
  show 0 ≤ rho ∧ rho ≤ 4 / π ^ 2
  unfold triFit at h
  simp only at h
  rcases hw : fitWeights (data.map fun d => pymod d (2 * π)).length weights with e | w
  · rw [hw] at h; cases h
  · rw [hw] at h
    simp only [bind, Except.bind, pure, Except.pure] at h
    split_ifs at h with h1 h2 h3
    · cases h; exact clip_mem h4
    · cases h; exact ⟨le_rfl, h4⟩
    · cases h; exact ⟨hhi.le, by linarith⟩
    · cases h
      have := hb (triScore (data.map fun d => pymod d (2 * π)) w) 0 (4 / π ^ 2 - 1 / 10 ^ 12) hhi.le
      exact ⟨this.1, this.2.trans (by linarith)⟩

theorem triLoglik_le {x w : List ℝ} {r r' : ℝ} (hx : ∀ v ∈ x, 0 ≤ v ∧ v < 2 * π)
    (hw : ∀ v ∈ w, 0 ≤ v) (h0 : 0 ≤ r) (h1 : r < 4 / π ^ 2) (h0' : 0 ≤ r') (h1' : r' < 4 / π ^ 2) :
    triLoglik x w r' - triLoglik x w r ≤ (r' - r) * triScore x w r := by
  have hpi := pi_pos
  have hpos : ∀ v s : ℝ, 0 ≤ s → s < 4 / π ^ 2 → 0 < 4 + s * (2 * π * |π - v| - π ^ 2) := by
    intro v s hs hs'
    rw [lt_div_iff₀ (by positivity)] at hs'
    have : 0 ≤ s * (2 * π * |π - v|) := by positivity
    nlinarith
  unfold triLoglik triScore
  rw [show ∀ a b c : ℝ, a - c - (b - c) = a - b by intros; ring]
  clear hx
  induction x generalizing w with
  | nil => simp
  | cons v x ih =>
    cases w with
    | nil => simp
    | cons u w =>
      simp only [List.zipWith_cons_cons, List.sum_cons]
      have hu := hw u (by simp)
      have ih' := ih (w := w) (fun z hz => hw z (by simp [hz]))
      have hp := hpos v r h0 h1
      have hp' := hpos v r' h0' h1'
      set c := 2 * π * |π - v| - π ^ 2 with hc
      have e : 4 - π ^ 2 * r + 2 * π * r * |π - v| = 4 + r * c := by rw [hc]; ring
      have e' : 4 - π ^ 2 * r' + 2 * π * r' * |π - v| = 4 + r' * c := by rw [hc]; ring
      rw [e, e']
      have hlog : log (4 + r' * c) - log (4 + r * c) ≤ (r' - r) * (c / (4 + r * c)) := by
        rw [← log_div hp'.ne' hp.ne']
        refine (log_le_sub_one_of_pos (by positivity)).trans (le_of_eq ?_)
        have hne := hp.ne'
        rw [div_sub_one hne, ← mul_div_assoc]; congr 1; ring
      have := mul_le_mul_of_nonneg_left hlog hu
      nlinarith

/-- **C83.** Every estimate of `cardioid.fit`, whatever the optimiser returns, is accepted by the
distribution itself. -/
theorem C83_cardioid
    (minimize : (ℝ → ℝ → Option ℝ) → (ℝ → ℝ → ℝ × ℝ) → ℝ × ℝ → MinResult 2)
    (data : List ℝ) (weights : Option (List ℝ)) (method : String) (s : ℝ × ℝ)
    (h : cardFit minimize data weights method = .ok s) : cardioid.argcheck s := by
  have hh : (0 : ℝ) ≤ 1 / 2 := by norm_num
  unfold cardFit at h
  simp only at h
  rcases hw : fitWeights (data.map wrap2pi).length weights with e | w
  · rw [hw] at h
    split_ifs at h <;> cases h
  · rw [hw] at h
    simp only [bind, Except.bind] at h
    split_ifs at h
    · cases h; exact ⟨wrap2pi_mem _, clip_mem hh⟩
    · cases h; exact ⟨wrap2pi_mem _, le_rfl, hh⟩
    · cases h; exact ⟨wrap2pi_mem _, clip_mem hh⟩

/-- **C83.** Bad input is refused: negative weights, weights of the wrong number, weights without
mass, no data, an unknown method, an optimiser that does not converge. -/
theorem C83_refusals (brentq : (ℝ → ℝ) → ℝ → ℝ → ℝ)
    (minimize : (ℝ → ℝ → Option ℝ) → (ℝ → ℝ → ℝ × ℝ) → ℝ × ℝ → MinResult 2)
    (data : List ℝ) (w : List ℝ) (method : String)
    (h : (∃ v ∈ w, v < 0) ∨ (w.length ≠ data.length ∧ w.length ≠ 1) ∨ w.sum ≤ 0) :
    triFit brentq data (some w) method = .error .valueError ∧
    cardFit minimize data (some w) method = .error .valueError := by
  have hf : fitWeights data.length (some w) = .error .valueError := by
    unfold fitWeights
    simp only
    split_ifs with h1
    · rfl
    rcases hb : broadcastTo data.length w with _ | w'
    · rfl
    · obtain ⟨hl, hb⟩ := broadcastTo_some hb
      simp only
      rw [if_pos]
      rcases h with h | h | h
      · exact absurd h h1
      · rcases hb with ⟨e, -⟩ | ⟨v, e, -⟩
        · exact absurd e h.1
        · exact absurd (by rw [e]; rfl) h.2
      · rcases hb with ⟨-, e⟩ | ⟨v, e, e'⟩
        · rwa [e]
        · rw [e] at h
          rw [e', List.sum_replicate, nsmul_eq_mul]
          have : v ≤ 0 := by simpa using h
          exact mul_nonpos_of_nonneg_of_nonpos (Nat.cast_nonneg _) this
  constructor
  · unfold triFit
    simp only [List.length_map]
    rw [hf]; rfl
  · unfold cardFit
    simp only [List.length_map]
    rw [hf]
    split_ifs <;> rfl

/-- Without data both methods of both families raise ValueError. -/
theorem C83_empty (brentq : (ℝ → ℝ) → ℝ → ℝ → ℝ)
    (minimize : (ℝ → ℝ → Option ℝ) → (ℝ → ℝ → ℝ × ℝ) → ℝ × ℝ → MinResult 2)
    (weights : Option (List ℝ)) (method : String) :
    triFit brentq [] weights method = .error .valueError ∧
    cardFit minimize [] weights method = .error .valueError := by
  constructor
  · unfold triFit
    have : fitWeights ([] : List ℝ).length weights = .error .valueError := by
      unfold fitWeights
      rcases weights with _ | w
      · rfl
      · simp only
        split_ifs with h1
        · rfl
        rcases hb : broadcastTo ([] : List ℝ).length w with _ | w'
        · rfl
        · obtain ⟨hl, -⟩ := broadcastTo_some hb
          have : w' = [] := List.length_eq_zero_iff.mp (by simpa using hl)
          simp [this]
    simp only [List.map_nil]
    rw [this]; rfl
  · unfold cardFit; rfl

/-! ## C101: objective and gradient of `cardioid.fit` -/

theorem hasDerivAt_zipWith_sum {x w : List ℝ} {g : ℝ → ℝ → ℝ → ℝ} {g' : ℝ → ℝ → ℝ} {a : ℝ}
    (h : ∀ xi ∈ x, ∀ wi ∈ w, HasDerivAt (fun t => g t xi wi) (g' xi wi) a) :
    HasDerivAt (fun t => (List.zipWith (g t) x w).sum) (List.zipWith g' x w).sum a := by
  induction x generalizing w with
  | nil => simpa using hasDerivAt_const a (0 : ℝ)
  | cons v x ih =>
    cases w with
    | nil => simpa using hasDerivAt_const a (0 : ℝ)
    | cons u w =>
      simp only [List.zipWith_cons_cons, List.sum_cons]
      exact (h v (by simp) u (by simp)).add
        (ih fun xi hxi wi hwi => h xi (by simp [hxi]) wi (by simp [hwi]))

theorem zipWith_sum_congr {x w : List ℝ} {f g : ℝ → ℝ → ℝ}
    (h : ∀ xi ∈ x, ∀ wi ∈ w, f xi wi = g xi wi) :
    (List.zipWith f x w).sum = (List.zipWith g x w).sum := by
  induction x generalizing w with
  | nil => simp
  | cons v x ih =>
    cases w with
    | nil => simp
    | cons u w =>
      simp only [List.zipWith_cons_cons, List.sum_cons]
      rw [h v (by simp) u (by simp), ih fun xi hxi wi hwi => h xi (by simp [hxi]) wi (by simp [hwi])]

theorem zipWith_sum_sub {x w : List ℝ} (h : x.length = w.length) {f : ℝ → ℝ} {c : ℝ} :
    (List.zipWith (fun xi wi => wi * (f xi - c)) x w).sum
      = (List.zipWith (fun xi wi => wi * f xi) x w).sum - w.sum * c := by
  induction x generalizing w with
  | nil =>
    have : w = [] := List.length_eq_zero_iff.mp h.symm
    simp [this]
  | cons v x ih =>
    cases w with
    | nil => simp at h
    | cons u w =>
      simp only [List.zipWith_cons_cons, List.sum_cons]
      rw [ih (by simpa using h)]; ring

theorem zipWith_sum_mul {x w : List ℝ} {f : ℝ → ℝ → ℝ} (c : ℝ) :
    c * (List.zipWith f x w).sum = (List.zipWith (fun a b => c * f a b) x w).sum := by
  induction x generalizing w with
  | nil => simp
  | cons v x ih =>
    cases w with
    | nil => simp
    | cons u w =>
      simp only [List.zipWith_cons_cons, List.sum_cons]
      rw [mul_add, ih]

theorem triScore_continuousOn (x w : List ℝ) :
    ContinuousOn (triScore x w) (Set.Icc 0 (4 / π ^ 2 - 1 / 10 ^ 12)) := by
  have hpi := pi_pos
  unfold triScore
  simp only
  induction x generalizing w with
  | nil => simpa using continuousOn_const
  | cons v x ih =>
    cases w with
    | nil => simpa using continuousOn_const
    | cons u w =>
      simp only [List.zipWith_cons_cons, List.sum_cons]
      refine ContinuousOn.add ?_ (ih w)
      refine continuousOn_const.mul (continuousOn_const.div (by fun_prop) ?_)
      intro s hs
      have h1 : s < 4 / π ^ 2 := lt_of_le_of_lt hs.2 (by linarith [show (0 : ℝ) < 1 / 10 ^ 12 by positivity])
      rw [lt_div_iff₀ (by positivity)] at h1
      have : 0 ≤ s * (2 * π * |π - v|) := mul_nonneg hs.1 (by positivity)
      nlinarith

theorem triLoglik_eq {data w : List ℝ} (hl : data.length = w.length) {r : ℝ} (h0 : 0 ≤ r)
    (h1 : r < 4 / π ^ 2) :
    (List.zipWith (fun d wi => wi * log (triangular.pdf (pymod d (2 * π)) r)) data w).sum
      = triLoglik (data.map fun d => pymod d (2 * π)) w r := by
  have hpi := pi_pos
  unfold triLoglik
  rw [List.zipWith_map_left]
  have e := zipWith_sum_sub (x := data) (w := w) hl (c := log (8 * π))
    (f := fun d => log (4 - π ^ 2 * r + 2 * π * r * |π - pymod d (2 * π)|))
  rw [← e]
  apply zipWith_sum_congr
  intro d _ wi _
  show wi * log (triPdf (pymod d (2 * π)) r) = _
  rw [lt_div_iff₀ (by positivity)] at h1
  have : 0 ≤ 2 * π * r * |π - pymod d (2 * π)| := by positivity
  unfold triPdf
  rw [div_div, log_div (by nlinarith) (by positivity)]

/-- **C83.** The maximum likelihood estimate of `triangular.fit` really maximises the weighted
log-likelihood of the distribution's own density over all `rho` up to `4/π² - 1e-12`, provided the
root finder finds a root of a continuous function that changes sign. -/
theorem C83_triangular_mle (brentq : (ℝ → ℝ) → ℝ → ℝ → ℝ)
    (hb : ∀ f a b, a ≤ b → a ≤ brentq f a b ∧ brentq f a b ≤ b)
    (hroot : ∀ (g : ℝ → ℝ) (a b : ℝ), a ≤ b → ContinuousOn g (Set.Icc a b) → 0 < g a → g b < 0 →
      g (brentq g a b) = 0)
    (data : List ℝ) (weights : Option (List ℝ)) (method : String) (rho : ℝ)
    (h : triFit brentq data weights method = .ok rho) (hm : method ≠ "moments") (rho' : ℝ)
    (h0' : 0 ≤ rho') (h1' : rho' ≤ 4 / π ^ 2 - 1 / 10 ^ 12) :
    (List.zipWith (fun d wi => wi * log (triangular.pdf (pymod d (2 * π)) rho')) data
        (fullWeights data.length weights)).sum
      ≤ (List.zipWith (fun d wi => wi * log (triangular.pdf (pymod d (2 * π)) rho)) data
        (fullWeights data.length weights)).sum := by
  have hhi := tri_hi
  have h12 : (0 : ℝ) < 1 / 10 ^ 12 := by positivity
  have harg := C83_triangular brentq hb data weights method rho h
  rcases hw : fitWeights data.length weights with e | w
  · unfold triFit at h
    simp only at h
    rw [List.length_map, hw] at h
    cases h
  obtain ⟨hl, hwn, _⟩ := fitWeights_ok hw
  have hgw : fullWeights data.length weights = w := fitWeights_full hw
  rw [hgw]
  unfold triFit at h
  simp only at h
  rw [List.length_map, hw] at h
  simp only [bind, Except.bind, pure, Except.pure] at h
  rw [if_neg hm] at h
  have hlt : rho < 4 / π ^ 2 := by
    split_ifs at h with h2 h3
    · cases h; linarith
    · cases h; linarith
    · cases h
      have := hb (triScore (data.map fun d => pymod d (2 * π)) w) 0 (4 / π ^ 2 - 1 / 10 ^ 12) hhi.le
      linarith [this.2]
  rw [triLoglik_eq hl.symm h0' (by linarith), triLoglik_eq hl.symm harg.1 hlt]
  set x := data.map fun d => pymod d (2 * π) with hx
  have hxr : ∀ v ∈ x, 0 ≤ v ∧ v < 2 * π := by
    intro v hv
    rw [hx, List.mem_map] at hv
    obtain ⟨d, _, rfl⟩ := hv
    exact ⟨pymod_nonneg two_pi_pos _, pymod_lt two_pi_pos _⟩
  have key : ∀ r, 0 ≤ r → r ≤ 4 / π ^ 2 - 1 / 10 ^ 12 → (rho' - r) * triScore x w r ≤ 0 →
      triLoglik x w rho' ≤ triLoglik x w r := by
    intro r a b c
    have := triLoglik_le hxr hwn a (by linarith) h0' (by linarith)
    linarith
  split_ifs at h with h2 h3
  · cases h
    exact key 0 le_rfl hhi.le (mul_nonpos_of_nonneg_of_nonpos (by linarith) h2)
  · cases h
    exact key _ hhi.le le_rfl (mul_nonpos_of_nonpos_of_nonneg (by linarith) h3)
  · cases h
    have hbr := hb (triScore x w) 0 (4 / π ^ 2 - 1 / 10 ^ 12) hhi.le
    refine key _ hbr.1 hbr.2 ?_
    rw [hroot _ _ _ hhi.le (triScore_continuousOn x w) (not_le.mp h2) (not_le.mp h3)]; simp

/-- **C101.** The objective of `cardioid.fit` is the weighted negative log-likelihood of the
distribution's own density wherever that density is positive at all data. -/
theorem C101_cardioid_objective {x w : List ℝ} {mu rho : ℝ} (hl : x.length = w.length)
    (h0 : 0 ≤ rho) (h1 : rho ≤ 1 / 2) (hp : ∀ xi ∈ x, 0 < cardioid.pdf xi (mu, rho)) :
    cardNll x w mu rho
      = some (-(List.zipWith (fun xi wi => wi * log (cardioid.pdf xi (mu, rho))) x w).sum) := by
  have hpi := pi_pos
  have hp' : ∀ xi ∈ x, 0 < 1 + 2 * rho * cos (xi - mu) := by
    intro xi hxi
    have := hp xi hxi
    change 0 < cardPdf xi mu rho at this
    unfold cardPdf at this
    rw [div_div] at this
    exact (div_pos_iff_of_pos_right (by positivity)).mp this
  unfold cardNll
  rw [if_neg (not_not.mpr ⟨h0, h1⟩), if_neg (by
    rintro ⟨xi, hxi, hle⟩
    exact absurd (hp' xi hxi) (not_lt.mpr hle))]
  congr 1
  have e : (List.zipWith (fun xi wi => wi * log (cardioid.pdf xi (mu, rho))) x w).sum
      = (List.zipWith (fun xi wi => wi * (log (1 + 2 * rho * cos (xi - mu)) - log (2 * π))) x w).sum := by
    apply zipWith_sum_congr
    intro xi hxi wi _
    congr 1
    show log (cardPdf xi mu rho) = _
    unfold cardPdf
    rw [div_div, log_div (hp' xi hxi).ne' (by positivity)]
  rw [e, zipWith_sum_sub hl (f := fun xi => log (1 + 2 * rho * cos (xi - mu)))]
  ring

/-- **C101.** The gradient handed to the optimiser by `cardioid.fit` is the gradient of the objective
handed to it, at every interior point where the objective is finite. -/
theorem C101_cardioid_gradient {x w : List ℝ} {mu rho : ℝ} (h0 : 0 < rho) (h1 : rho < 1 / 2) :
    (∃ f : ℝ → ℝ, (∀ m, cardNll x w m rho = some (f m)) ∧
      HasDerivAt f (cardGrad x w mu rho).1 mu) ∧
    (∃ f : ℝ → ℝ, (∀ r, 0 < r → r < 1 / 2 → cardNll x w mu r = some (f r)) ∧
      HasDerivAt f (cardGrad x w mu rho).2 rho) := by
  have hpos : ∀ m r, 0 < r → r < 1 / 2 → ∀ xi : ℝ, 0 < 1 + 2 * r * cos (xi - m) := by
    intro m r a b xi
    nlinarith [neg_one_le_cos (xi - m), cos_le_one (xi - m)]
  have hval : ∀ m r, 0 < r → r < 1 / 2 → cardNll x w m r
      = some (-(List.zipWith (fun xi wi => wi * log (1 + 2 * r * cos (xi - m))) x w).sum
        + w.sum * log (2 * π)) := by
    intro m r a b
    unfold cardNll
    rw [if_neg (not_not.mpr ⟨a.le, b.le⟩), if_neg (by
      rintro ⟨xi, _, hle⟩
      exact absurd (hpos m r a b xi) (not_lt.mpr hle))]
  have hgrad : cardGrad x w mu rho =
      (-2 * rho * (List.zipWith (fun xi wi =>
        wi / (1 + 2 * rho * cos (xi - mu)) * sin (xi - mu)) x w).sum,
       -2 * (List.zipWith (fun xi wi =>
        wi / (1 + 2 * rho * cos (xi - mu)) * cos (xi - mu)) x w).sum) := by
    unfold cardGrad
    rw [if_neg (by
      rintro ⟨xi, _, hle⟩
      exact absurd (hpos mu rho h0 h1 xi) (not_lt.mpr hle))]
  rw [hgrad]
  refine ⟨⟨_, fun m => hval m rho h0 h1, ?_⟩, ⟨_, fun r a b => hval mu r a b, ?_⟩⟩
  · have hd := hasDerivAt_zipWith_sum (x := x) (w := w) (a := mu)
      (g := fun m xi wi => wi * log (1 + 2 * rho * cos (xi - m)))
      (g' := fun xi wi => 2 * rho * (wi / (1 + 2 * rho * cos (xi - mu)) * sin (xi - mu)))
      (fun xi _ wi _ => by
        have h2 : HasDerivAt (fun m : ℝ => cos (xi - m)) (-sin (xi - mu) * -1) mu :=
          ((hasDerivAt_id mu).const_sub xi).cos
        have h3 := (((h2.const_mul (2 * rho)).const_add 1).log (hpos mu rho h0 h1 xi).ne').const_mul wi
        refine h3.congr_deriv ?_
        have := (hpos mu rho h0 h1 xi).ne'
        ring)
    refine (hd.neg.add_const _).congr_deriv ?_
    rw [← zipWith_sum_mul]; ring
  · have hd := hasDerivAt_zipWith_sum (x := x) (w := w) (a := rho)
      (g := fun r xi wi => wi * log (1 + 2 * r * cos (xi - mu)))
      (g' := fun xi wi => 2 * (wi / (1 + 2 * rho * cos (xi - mu)) * cos (xi - mu)))
      (fun xi _ wi _ => by
        have h2 : HasDerivAt (fun r : ℝ => 1 + 2 * r * cos (xi - mu)) (2 * 1 * cos (xi - mu)) rho :=
          (((hasDerivAt_id rho).const_mul 2).mul_const _).const_add 1
        have h3 := (h2.log (hpos mu rho h0 h1 xi).ne').const_mul wi
        refine h3.congr_deriv ?_
        ring)
    refine (hd.neg.add_const _).congr_deriv ?_
    rw [← zipWith_sum_mul]; ring

/-! ## Non-vacuity -/

/-- A sample whose triangular moment estimate is neither end of the range. -/
example : triFit (fun _ a _ => a) [0, 2 * π / 3] (some [1, 1]) "moments" = .ok (1 / 4) := by
  have hpi := pi_pos
  have h1 : pymod 0 (2 * π) = 0 := pymod_eq_self two_pi_pos le_rfl two_pi_pos
  have h2 : pymod (2 * π / 3) (2 * π) = 2 * π / 3 :=
    pymod_eq_self two_pi_pos (by positivity) (by linarith)
  have hc : cos (2 * π / 3) = -(1 / 2) := by
    rw [show 2 * π / 3 = π - π / 3 by ring, cos_pi_sub, cos_pi_div_three]
  have h4 : (1 : ℝ) / 4 ≤ 4 / π ^ 2 := by
    rw [le_div_iff₀ (by positivity)]; nlinarith [pi_lt_d2]
  unfold triFit
  simp only [List.map_cons, List.map_nil, h1, h2]
  have hf : fitWeights ([0, 2 * π / 3] : List ℝ).length (some [1, 1]) = .ok [1, 1] := by
    unfold fitWeights broadcastTo; norm_num
  rw [hf]
  simp only [bind, Except.bind, pure, Except.pure, if_true, List.zipWith_cons_cons, List.sum_cons,
    List.zipWith_nil_left, List.sum_nil, hc, cos_zero]
  unfold clip
  rw [max_eq_left (by norm_num), min_eq_left (by norm_num; linarith)]
  norm_num

/-- C101 for a concrete sample of three angles. -/
example : ∃ f : ℝ → ℝ, (∀ m, cardNll [0, 1, 2] [1, 1, 2] m (1 / 4) = some (f m)) ∧
    HasDerivAt f (cardGrad [0, 1, 2] [1, 1, 2] 1 (1 / 4)).1 1 :=
  (C101_cardioid_gradient (by norm_num) (by norm_num)).1

end Verif
