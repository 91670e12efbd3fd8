import Verif.Props.DistWrapStable
import Verif.Props.DistKatoJonesB

/-! # C115: the distribution function and the quantiles of the wrapped stable distribution -/

set_option autoImplicit false

namespace Verif

open Verif.Spec Real MeasureTheory

lemma ws_not_end {x : ℝ} (h1 : x ≤ 2 * π - 7 / 10 ^ 5) : ¬ isclose x (2 * π) rtolDefault (1 / 10 ^ 12) := by
  have hpi := pi_lt_d2
  unfold isclose rtolDefault
  rw [abs_of_nonpos (by norm_num at h1; linarith), abs_of_pos two_pi_pos]
  norm_num at h1 ⊢
  linarith

lemma ws_end {x : ℝ} (h0 : 2 * π - 6 / 10 ^ 5 ≤ x) (h1 : x ≤ 2 * π) : isclose x (2 * π) rtolDefault (1 / 10 ^ 12) := by
  have hpi := pi_gt_d2
  unfold isclose rtolDefault
  rw [abs_of_nonpos (by linarith), abs_of_pos two_pi_pos]
  norm_num at h0 ⊢
  linarith

lemma ws_start_iff {x : ℝ} (h0 : 0 ≤ x) : isclose x 0 rtolDefault (1 / 10 ^ 12) ↔ x ≤ 1 / 10 ^ 12 := by
  unfold isclose
  rw [sub_zero, abs_of_nonneg h0, abs_zero, mul_zero, add_zero]

lemma wsSeries_eq (s : WS) (x : ℝ) : ∫ t in (0 : ℝ)..x, wsPdf t s = wsSeries x s := by
  rw [wsPdf_integral, wsSeries_zero, sub_zero]

lemma wsSeries_mono {s : WS} (hn : ∀ x, 0 ≤ x → x ≤ 2 * π → 0 ≤ wsPdf x s) {a b : ℝ} (ha : 0 ≤ a) (hab : a ≤ b) (hb : b ≤ 2 * π) :
    wsSeries a s ≤ wsSeries b s := by
  have h : 0 ≤ ∫ t in a..b, wsPdf t s :=
    intervalIntegral.integral_nonneg hab fun t ht => hn t (ha.trans ht.1) (ht.2.trans hb)
  rw [wsPdf_integral] at h
  linarith

lemma wsCdf_inner {s : WS} (hn : ∀ x, 0 ≤ x → x ≤ 2 * π → 0 ≤ wsPdf x s) {x : ℝ} (h0 : 1 / 10 ^ 12 < x)
    (h1 : x ≤ 2 * π - 7 / 10 ^ 5) : wsCdf x s = wsSeries x s := by
  have hx0 : 0 ≤ x := le_trans (by positivity) h0.le
  have h7 : (0 : ℝ) < 7 / 10 ^ 5 := by norm_num
  have hlow := wsSeries_mono hn le_rfl hx0 (by linarith)
  have hup := wsSeries_mono hn hx0 (show x ≤ 2 * π by linarith) le_rfl
  rw [wsSeries_zero] at hlow
  rw [wsSeries_two_pi] at hup
  unfold wsCdf
  rw [if_neg (ws_not_end h1), if_neg (fun h => absurd ((ws_start_iff hx0).1 h) (not_le.2 h0)), if_neg (not_lt.2 hlow)]
  unfold clip
  rw [max_eq_left hlow, min_eq_left hup]

/-- **C115.** The `cdf` method, where the `pdf` method is nowhere negative: 0 up to `1e-12`, then the integral of the density
from 0, up to `2π - 7e-5`; from `2π - 6e-5` on it is 1. -/
theorem C115_cdf {s : WS} (hs : wsArgcheck s) :
    ∃ g : ℝ → ℝ, (∀ x, RegularAngle x → distPdf wrapstable x s = some (g x)) ∧ Continuous g ∧ (∀ x, g (x + 2 * π) = g x) ∧
      (∀ x, 0 ≤ x → x ≤ 1 / 10 ^ 12 → distCdf wrapstable x s = some 0) ∧
      (∀ x, 2 * π - 6 / 10 ^ 5 ≤ x → x < 2 * π → distCdf wrapstable x s = some 1) ∧
      ((∀ x, 0 ≤ g x) → ∀ x, 1 / 10 ^ 12 < x → x ≤ 2 * π - 7 / 10 ^ 5 →
        distCdf wrapstable x s = some (∫ t in (0 : ℝ)..x, g t)) := by
  have hpi := pi_gt_three
  have h7 : (7 : ℝ) / 10 ^ 5 < 1 := by norm_num
  have h6 : (6 : ℝ) / 10 ^ 5 < 1 := by norm_num
  have h12 : (1 : ℝ) / 10 ^ 12 < 1 := by norm_num
  have h14 : (1 : ℝ) / 10 ^ 14 < 7 / 10 ^ 5 := by norm_num
  have h14' : (1 : ℝ) / 10 ^ 14 < 6 / 10 ^ 5 := by norm_num
  have h120 : (0 : ℝ) < 1 / 10 ^ 12 := by norm_num
  refine ⟨fun x => wsPdf x s, fun x hx => distPdf_regular wrapstable hs hx, wsPdf_continuous s, wsPdf_periodic s, ?_, ?_, ?_⟩
  · intro x h0 h1
    rcases h0.eq_or_lt with h | h
    · subst h
      unfold distCdf
      rw [wrap2pi_zero, if_neg (not_not.mpr (show wrapstable.argcheck s from hs)), if_neg (by linarith), if_neg (lt_irrefl _)]
    · rw [distCdf_inner wrapstable s hs h (by linarith)]
      show some (wsCdf x s) = some 0
      unfold wsCdf
      rw [if_neg (ws_not_end (by linarith)), if_pos ((ws_start_iff h0).2 h1)]
  · intro x h0 h1
    by_cases hc : x ≤ 2 * π - 1 / 10 ^ 14
    · rw [distCdf_inner wrapstable s hs (by linarith) hc]
      show some (wsCdf x s) = some 1
      unfold wsCdf
      rw [if_pos (ws_end h0 h1.le)]
    · have hw : wrap2pi x = 2 * π ∨ wrap2pi x = x := by
        by_cases hw : x < 2 * π - wrapTol
        · right; exact wrap2pi_self (by linarith) hw
        · left; exact wrap2pi_close (by rw [abs_of_nonpos (by linarith)]; linarith [not_lt.mp hw])
      unfold distCdf
      rcases hw with hw | hw
      · rw [hw, if_neg (not_not.mpr (show wrapstable.argcheck s from hs)), if_pos le_rfl]
      · rw [hw, if_neg (not_not.mpr (show wrapstable.argcheck s from hs)), if_neg (by linarith), if_pos (by linarith)]
        show some (wsCdf x s) = some 1
        unfold wsCdf
        rw [if_pos (ws_end h0 h1.le)]
  · intro hn x h0 h1
    rw [distCdf_inner wrapstable s hs (by linarith) (by linarith)]
    show some (wsCdf x s) = _
    rw [wsCdf_inner (fun x _ _ => hn x) h0 h1, wsSeries_eq]

/-! ## Quantiles -/

/-- **C115.** The `ppf` method, where the `pdf` method is nowhere negative and at most `M`: for a probability `q` between
`1e-12` and `1 - 1e-12` the mass below the returned angle exceeds `q` by at most `6e-9 M` and falls short of it by at most
`8e-5 M`, and by at most `6e-9 M` if `q` is reached before `2π - 7e-5`. -/
theorem C115_ppf {s : WS} (hs : wsArgcheck s) {q M : ℝ} (hq0 : 1 / 10 ^ 12 < q) (hq1 : q < 1 - 1 / 10 ^ 12) :
    ∃ g : ℝ → ℝ, (∀ x, RegularAngle x → distPdf wrapstable x s = some (g x)) ∧ Continuous g ∧ (∀ x, g (x + 2 * π) = g x) ∧
      ((∀ x, 0 ≤ g x) → (∀ x, g x ≤ M) → ∃ theta, distPpf wrapstable q s = some theta ∧ 0 ≤ theta ∧ theta < 2 * π ∧
        (∫ t in (0 : ℝ)..theta, g t) ≤ q + 6 / 10 ^ 9 * M ∧ q - 8 / 10 ^ 5 * M ≤ (∫ t in (0 : ℝ)..theta, g t) ∧
        (q ≤ (∫ t in (0 : ℝ)..(2 * π - 7 / 10 ^ 5), g t) → q - 6 / 10 ^ 9 * M ≤ (∫ t in (0 : ℝ)..theta, g t))) := by
  have hpi := pi_gt_three
  have hpi' := pi_lt_d2
  have h7 : (7 : ℝ) / 10 ^ 5 < 1 := by norm_num
  have h70 : (0 : ℝ) < 7 / 10 ^ 5 := by norm_num
  have h12 : (0 : ℝ) < 1 / 10 ^ 12 := by norm_num
  refine ⟨fun x => wsPdf x s, fun x hx => distPdf_regular wrapstable hs hx, wsPdf_continuous s, wsPdf_periodic s,
    fun hn hM => ?_⟩
  have hM0 : 0 ≤ M := (hn 0).trans (hM 0)
  have hn' : ∀ x, 0 ≤ x → x ≤ 2 * π → 0 ≤ wsPdf x s := fun x _ _ => hn x
  have hlip : ∀ a b, a ≤ b → wsSeries b s - wsSeries a s ≤ M * (b - a) := fun a b hab => by
    rw [← wsPdf_integral]
    have := intervalIntegral.integral_mono_on (μ := volume) hab ((wsPdf_continuous s).intervalIntegrable _ _)
      ((continuous_const (y := M)).intervalIntegrable _ _) fun t _ => hM t
    rw [intervalIntegral.integral_const, smul_eq_mul] at this
    linarith
  have hstart0 : 0 ≤ q * (2 * π) := by have : 0 < q := by linarith
                                       positivity
  have hstart1 : q * (2 * π) < 2 * π := by nlinarith
  obtain ⟨L, H, l0, lt, tH, h2, t2, hw, hL, hH⟩ := C82_katojones_solver (fun t => wsCdf t s) (fun t => wsPdf t s) q
    (q * (2 * π)) 60 hstart0 hstart1
  obtain ⟨th, hth⟩ : ∃ th, th = kjNewton (fun t => wsCdf t s) (fun t => wsPdf t s) q 60 ⟨q * (2 * π), 0, 2 * π⟩ := ⟨_, rfl⟩
  rw [← hth] at lt tH t2
  have hval : distPpf wrapstable q s = some th := by
    unfold distPpf
    rw [if_neg (not_not.mpr (show wrapstable.argcheck s from hs)), if_neg (by linarith), if_neg (by linarith), if_pos ⟨by linarith, by linarith⟩]
    show some (wsPpf q s) = some th
    unfold wsPpf
    have c0 : ¬ isclose q 0 0 (1 / 10 ^ 12) := by
      unfold isclose
      rw [sub_zero, abs_of_pos (by linarith)]; simp only [zero_mul, add_zero]; linarith
    have c1 : ¬ isclose q 1 0 (1 / 10 ^ 12) := by
      unfold isclose
      rw [abs_of_neg (by linarith)]; simp only [zero_mul, add_zero]; linarith
    rw [if_neg c0, if_neg c1, ← hth]
    have : pymod (th + 2 * π) (2 * π) = th :=
      (pymod_eq_iff two_pi_pos).2 ⟨by linarith, t2, ⟨-1, by push_cast; ring⟩⟩
    rw [this]
  refine ⟨th, hval, by linarith, t2, ?_⟩
  have hwid : H - L ≤ 588 / 10 ^ 11 := by
    refine hw.trans ?_
    norm_num
    linarith
  have hIL : wsSeries L s ≤ q + M * (1 / 10 ^ 12) := by
    have hMp : 0 ≤ M * (1 / 10 ^ 12) := by positivity
    rcases hL with h | h
    · rw [h, wsSeries_zero]; linarith
    · by_cases e1 : isclose L (2 * π) rtolDefault (1 / 10 ^ 12)
      · simp only [wsCdf] at h
        rw [if_pos e1] at h
        linarith
      · by_cases e0 : L ≤ 1 / 10 ^ 12
        · have := hlip 0 L l0
          rw [wsSeries_zero] at this
          have h3 : M * (L - 0) ≤ M * (1 / 10 ^ 12) := mul_le_mul_of_nonneg_left (by linarith) hM0
          linarith
        · simp only [wsCdf] at h
          have hlow := wsSeries_mono hn' le_rfl l0 (by linarith)
          have hup := wsSeries_mono hn' l0 (show L ≤ 2 * π by linarith) le_rfl
          rw [wsSeries_zero] at hlow
          rw [wsSeries_two_pi] at hup
          rw [if_neg e1, if_neg (fun h => e0 ((ws_start_iff l0).1 h)), if_neg (not_lt.2 hlow)] at h
          unfold clip at h
          rw [max_eq_left hlow, min_eq_left hup] at h
          linarith
  have hH0 : 0 ≤ H := by linarith
  have hIH : q - M * (7 / 10 ^ 5) ≤ wsSeries H s ∧ (q ≤ wsSeries (2 * π - 7 / 10 ^ 5) s → q ≤ wsSeries H s) := by
    have hMp : 0 ≤ M * (7 / 10 ^ 5) := by positivity
    by_cases hend : H ≤ 2 * π - 7 / 10 ^ 5
    · have hF : q < wsCdf H s := by
        rcases hH with h | h
        · linarith
        · exact h
      by_cases e0 : H ≤ 1 / 10 ^ 12
      · unfold wsCdf at hF
        rw [if_neg (ws_not_end hend), if_pos ((ws_start_iff hH0).2 e0)] at hF
        linarith
      · rw [wsCdf_inner hn' (not_le.1 e0) hend] at hF
        exact ⟨by linarith, fun _ => hF.le⟩
    · push Not at hend
      have h3 := hlip H (2 * π) h2
      rw [wsSeries_two_pi] at h3
      have h4 : M * (2 * π - H) ≤ M * (7 / 10 ^ 5) := mul_le_mul_of_nonneg_left (by linarith) hM0
      exact ⟨by linarith, fun hq => hq.trans (wsSeries_mono hn' (by linarith) hend.le h2)⟩
  have hup : M * (th - L) ≤ M * (588 / 10 ^ 11) := mul_le_mul_of_nonneg_left (by linarith) hM0
  have hdn : M * (H - th) ≤ M * (588 / 10 ^ 11) := mul_le_mul_of_nonneg_left (by linarith) hM0
  have a := hlip L th lt
  have b := hlip th H tH
  simp only [wsSeries_eq]
  refine ⟨?_, ?_, fun hq => ?_⟩
  · norm_num at hIL hup ⊢; linarith
  · have := hIH.1; norm_num at this hdn ⊢; linarith
  · have := hIH.2 hq; norm_num at hdn ⊢; linarith

/-! ## A distribution function that is not monotone -/

lemma ws_narrow_abs {s : WS} (hs : wsArgcheck s) (ha : 1 ≤ s.alpha) (hg : s.gamma ≤ 1 / 10 ^ 6) (x : ℝ) :
    |wsPdf x s| ≤ 6668 := by
  have hpi := pi_gt_three
  have hsum : |∑ i ∈ Finset.range 20001, wsRho s (i + 1) * cos ((i + 1) * x - wsMu s (i + 1))| ≤ 20001 := by
    refine (Finset.abs_sum_le_sum_abs _ _).trans ?_
    have h1 : ∀ i ∈ Finset.range 20001, |wsRho s (i + 1) * cos ((i + 1) * x - wsMu s (i + 1))| ≤ 1 := fun i hi => by
      have h := (ws_narrow_rho hs ha hg (p := i + 1) (by have := Finset.mem_range.1 hi; omega)).2
      push_cast at h
      rw [abs_mul, abs_of_pos (wsRho_pos _ _)]
      exact mul_le_one₀ h (abs_nonneg _) (abs_cos_le_one _)
    refine (Finset.sum_le_sum h1).trans ?_
    simp
  unfold wsPdf
  rw [ws_narrow_order hs ha hg, abs_mul, abs_of_pos (by positivity), one_div_mul_eq_div, div_le_iff₀ two_pi_pos]
  refine (abs_add_le _ _).trans ?_
  rw [abs_mul, abs_one, abs_two]
  linarith

lemma ws_narrow_lip {s : WS} (hs : wsArgcheck s) (ha : 1 ≤ s.alpha) (hg : s.gamma ≤ 1 / 10 ^ 6) {x : ℝ} (hx : 0 ≤ x) :
    wsPdf x s ≤ wsPdf 0 s + 66676667 * x := by
  have hpi := pi_gt_three
  have h1 : ∀ i ∈ Finset.range 20001, wsRho s (i + 1) * cos ((i + 1) * x - wsMu s (i + 1))
      ≤ wsRho s (i + 1) * cos ((i + 1) * 0 - wsMu s (i + 1)) + (i + 1 : ℕ) * x := fun i hi => by
    have h := (ws_narrow_rho hs ha hg (p := i + 1) (by have := Finset.mem_range.1 hi; omega)).2
    push_cast at h ⊢
    have h0 := wsRho_pos s (i + 1)
    have h2 := (abs_le.1 (abs_cos_sub_cos_le (((i : ℝ) + 1) * x - wsMu s (i + 1)) ((i + 1) * 0 - wsMu s (i + 1)))).2
    rw [show ((i : ℝ) + 1) * x - wsMu s (i + 1) - ((i + 1) * 0 - wsMu s (i + 1)) = (i + 1) * x by ring,
      abs_of_nonneg (by positivity)] at h2
    have h3 : wsRho s (i + 1) * (cos (((i : ℝ) + 1) * x - wsMu s (i + 1)) - cos ((i + 1) * 0 - wsMu s (i + 1)))
        ≤ wsRho s (i + 1) * ((i + 1) * x) := mul_le_mul_of_nonneg_left h2 h0.le
    have h4 : wsRho s (i + 1) * ((i + 1) * x) ≤ 1 * ((i + 1) * x) := mul_le_mul_of_nonneg_right h (by positivity)
    linarith
  have h2 := Finset.sum_le_sum h1
  rw [Finset.sum_add_distrib, ← Finset.sum_mul] at h2
  have e : ∑ i ∈ Finset.range 20001, ((i + 1 : ℕ) : ℝ) = 200030001 := by
    have := Finset.sum_range_succ' (fun i => (i : ℝ)) 20001
    rw [Nat.cast_zero, add_zero] at this
    rw [← this, ← Nat.cast_sum, Finset.sum_range_id]
    norm_num
  rw [e] at h2
  unfold wsPdf
  rw [ws_narrow_order hs ha hg]
  generalize ∑ i ∈ Finset.range 20001, wsRho s (i + 1) * cos ((i + 1) * x - wsMu s (i + 1)) = A at *
  generalize ∑ i ∈ Finset.range 20001, wsRho s (i + 1) * cos ((i + 1) * 0 - wsMu s (i + 1)) = B at *
  have h3 : 66676667 * x = 1 / (2 * π) * (2 * π * 66676667 * x) := by field_simp
  rw [h3, ← mul_add]
  refine mul_le_mul_of_nonneg_left ?_ (by positivity)
  have : 66676667 * (3 * x) ≤ 66676667 * (π * x) :=
    mul_le_mul_of_nonneg_left (mul_le_mul_of_nonneg_right hpi.le hx) (by norm_num)
  linarith

/-- **C115 (negative).** The `cdf` method of a narrow symmetric distribution centred at `3π/40003` is not monotone: it is
above 0.99 at `1e-10`, and 0 at a larger angle. -/
theorem C115_cdf_drops {s : WS} (hs : wsArgcheck s) (hd : s.delta = 3 * π / 40003) (hb : s.beta = 0) (ha : 1 ≤ s.alpha)
    (hg : s.gamma ≤ 1 / 10 ^ 6) :
    (∃ c, 99 / 100 < c ∧ distCdf wrapstable (1 / 10 ^ 10) s = some c) ∧
      ∃ x, 1 / 10 ^ 10 < x ∧ x < 2 * π ∧ distCdf wrapstable x s = some 0 := by
  have hpi := pi_gt_three
  have hpi' := pi_lt_d2
  have h10 : (0 : ℝ) < 1 / 10 ^ 10 := by positivity
  have h10' : (1 : ℝ) / 10 ^ 10 < 1 := by norm_num
  have h12 : (1 : ℝ) / 10 ^ 12 < 1 / 10 ^ 10 := by norm_num
  have h14 : (1 : ℝ) / 10 ^ 14 < 7 / 10 ^ 5 := by norm_num
  have h7 : (7 : ℝ) / 10 ^ 5 < 1 := by norm_num
  have h0neg : wsPdf 0 s < -1200 := by
    have := ws_narrow_neg hs hb ha hg (d := -(3 * π / 40003)) (Or.inr rfl)
    rwa [hd, add_neg_cancel] at this
  have hcont := wsPdf_continuous s
  -- the integral over `[0, 1e-10]`
  have hI0 : wsSeries (1 / 10 ^ 10) s < 0 := by
    rw [← wsSeries_eq]
    have h := intervalIntegral.integral_mono_on (μ := volume) h10.le (hcont.intervalIntegrable 0 (1 / 10 ^ 10))
      ((continuous_const (y := (-1000 : ℝ))).intervalIntegrable _ _) fun t ht => by
        have h1 := ws_narrow_lip hs ha hg ht.1
        have h2 := ht.2
        norm_num at h2
        linarith
    rw [intervalIntegral.integral_const, smul_eq_mul] at h
    norm_num at h ⊢
    linarith
  have hlow : ∀ a b, a ≤ b → -(6668 * (b - a)) ≤ wsSeries b s - wsSeries a s ∧ wsSeries b s - wsSeries a s ≤ 6668 * (b - a) := by
    intro a b hab
    have h := intervalIntegral.norm_integral_le_of_norm_le_const (a := a) (b := b) (f := fun t => wsPdf t s) (C := 6668)
      fun t _ => by rw [norm_eq_abs]; exact ws_narrow_abs hs ha hg t
    rw [wsPdf_integral, norm_eq_abs, abs_of_nonneg (by linarith : 0 ≤ b - a)] at h
    exact ⟨(abs_le.1 h).1, (abs_le.1 h).2⟩
  constructor
  · refine ⟨_, ?_, distCdf_inner wrapstable s hs h10 (by linarith)⟩
    show 99 / 100 < wsCdf (1 / 10 ^ 10) s
    have h1 := (hlow 0 (1 / 10 ^ 10) h10.le).1
    rw [wsSeries_zero] at h1
    have h2 : 99 / 100 < wsSeries (1 / 10 ^ 10) s + 1 := by norm_num at h1 ⊢; linarith
    unfold wsCdf
    rw [if_neg (ws_not_end (by linarith)), if_neg (fun h => absurd ((ws_start_iff h10.le).1 h) (not_le.2 h12)), if_pos hI0]
    unfold clip
    rw [max_eq_left (by linarith)]
    exact lt_min h2 (by norm_num)
  · have hend : 0 < wsSeries (2 * π - 7 / 10 ^ 5) s := by
      have h1 := (hlow (2 * π - 7 / 10 ^ 5) (2 * π) (by linarith)).2
      rw [wsSeries_two_pi] at h1
      norm_num at h1 ⊢
      linarith
    have hsc : Continuous fun x => wsSeries x s := by
      have : (fun x => wsSeries x s) = fun x => ∫ t in (0 : ℝ)..x, wsPdf t s := funext fun x => (wsSeries_eq s x).symm
      rw [this]
      exact intervalIntegral.continuous_primitive (fun a b => hcont.intervalIntegrable a b) 0
    obtain ⟨x, ⟨hx0, hx1⟩, hx⟩ := intermediate_value_Icc (show (1 : ℝ) / 10 ^ 10 ≤ 2 * π - 7 / 10 ^ 5 by linarith)
      hsc.continuousOn (show (0 : ℝ) ∈ Set.Icc (wsSeries (1 / 10 ^ 10) s) (wsSeries (2 * π - 7 / 10 ^ 5) s) from ⟨hI0.le, hend.le⟩)
    simp only at hx
    have hne : x ≠ 1 / 10 ^ 10 := fun h => by rw [h] at hx; linarith
    have hlt : 1 / 10 ^ 10 < x := lt_of_le_of_ne hx0 (Ne.symm hne)
    have hx00 : 0 ≤ x := by linarith
    refine ⟨x, hlt, by linarith, ?_⟩
    rw [distCdf_inner wrapstable s hs (by linarith) (by linarith)]
    show some (wsCdf x s) = some 0
    unfold wsCdf
    rw [if_neg (ws_not_end hx1), if_neg (fun h => absurd ((ws_start_iff hx00).1 h) (by linarith)), hx, if_neg (lt_irrefl _)]
    simp [clip]

/-- C115_cdf, C115_ppf: the wrapped Cauchy case meets the hypothesis, C115_cdf_drops: a distribution to which it applies. -/
example : (∃ g : ℝ → ℝ, (∀ x, RegularAngle x → distPdf wrapstable x ⟨1, 1, 0, 1 / 2⟩ = some (g x)) ∧ ∀ x, 0 < g x) ∧
    wsArgcheck ⟨3 * π / 40003, 3 / 2, 0, 1 / 10 ^ 6⟩ := by
  have := pi_gt_three
  have h := C115_cauchy (s := ⟨1, 1, 0, 1 / 2⟩) ⟨⟨by norm_num, by simp only; linarith⟩, by norm_num, by norm_num, by norm_num⟩
    rfl rfl (by norm_num)
  obtain ⟨g, h1, -, h2, -⟩ := h
  exact ⟨⟨g, h1, h2⟩, ⟨⟨by positivity, by simp only; linarith⟩, by norm_num, by norm_num, by norm_num⟩⟩

end Verif
