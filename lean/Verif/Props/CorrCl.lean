import Verif.Lemmas.MeanDir
import Mathlib.Order.Bounds.Basic
import Mathlib.Algebra.Order.BigOperators.Ring.Finset
import Mathlib.Tactic.FieldSimp
import Mathlib.Tactic.LinearCombination

/-! # C54: circular-linear correlation (`circ_corrcl`) -/

set_option autoImplicit false

namespace Verif.Props

open Real Verif Verif.Spec

/-- Specification: the sum of squares left over when `x` is predicted by `p + q cos a + s sin a`. -/
noncomputable def residualSS {n : ℕ} (a x : Fin n → ℝ) (p q s : ℝ) : ℝ :=
  ∑ i, (x i - (p + q * cos (a i) + s * sin (a i))) ^ 2

/-- Specification: the sum of products of deviations from the means. -/
noncomputable def devSS {n : ℕ} (u v : Fin n → ℝ) : ℝ :=
  ∑ i, (u i - (∑ j, u j) / n) * (v i - (∑ j, v j) / n)

/-- Specification: the data are refused as degenerate when this, `1` minus the squared correlation of
sine and cosine, is at most `1e-8`. -/
noncomputable def trigGap {n : ℕ} (a : Fin n → ℝ) : ℝ :=
  1 - devSS (fun i => sin (a i)) (fun i => cos (a i)) ^ 2 /
    (devSS (fun i => sin (a i)) (fun i => sin (a i)) * devSS (fun i => cos (a i)) (fun i => cos (a i)))

section Helpers

variable {n : ℕ}

lemma mean_ofFn (u : Fin n → ℝ) (hn : n ≠ 0) : mean (List.ofFn u) = some ((∑ j, u j) / n) := by
  have : (n : ℝ) ≠ 0 := by exact_mod_cast hn
  unfold mean
  rw [List.sum_ofFn, List.length_ofFn, show pydiv (∑ i, u i) (n : ℝ) = some _ from if_neg this]

lemma cov1_ofFn (u v : Fin n → ℝ) (hn : 2 ≤ n) :
    cov1 (List.ofFn u) (List.ofFn v) = some (devSS u v / ((n : ℝ) - 1)) := by
  have h2 : (2 : ℝ) ≤ n := by exact_mod_cast hn
  unfold cov1
  rw [mean_ofFn u (by omega), mean_ofFn v (by omega), Option.bind_some, Option.bind_some, zipWith_ofFn,
    List.sum_ofFn, List.length_ofFn, show pydiv _ ((n : ℝ) - 1) = some _ from if_neg (by linarith)]
  rfl

lemma devSS_nonneg (u : Fin n → ℝ) : 0 ≤ devSS u u := Finset.sum_nonneg fun _ _ => mul_self_nonneg _

lemma devSS_comm (u v : Fin n → ℝ) : devSS u v = devSS v u := by
  unfold devSS
  exact Finset.sum_congr rfl fun i _ => mul_comm _ _

lemma corrcoef_ofFn (u v : Fin n → ℝ) (hn : 2 ≤ n) :
    corrcoef (List.ofFn u) (List.ofFn v) = if devSS u u = 0 ∨ devSS v v = 0 then none
      else some (devSS u v / (sqrt (devSS u u) * sqrt (devSS v v))) := by
  have h2 : (2 : ℝ) ≤ n := by exact_mod_cast hn
  have hn1 : (0 : ℝ) < (n : ℝ) - 1 := by linarith
  have hs := sqrt_pos.2 hn1
  unfold corrcoef
  rw [cov1_ofFn u v hn, cov1_ofFn u u hn, cov1_ofFn v v hn]
  simp only [Option.bind_some]
  rw [sqrt_div (devSS_nonneg u), sqrt_div (devSS_nonneg v)]
  unfold pydiv
  have e : sqrt (devSS u u) / sqrt ((n : ℝ) - 1) * (sqrt (devSS v v) / sqrt ((n : ℝ) - 1)) = 0 ↔
      devSS u u = 0 ∨ devSS v v = 0 := by
    rw [mul_eq_zero, div_eq_zero_iff, div_eq_zero_iff, sqrt_eq_zero (devSS_nonneg u), sqrt_eq_zero (devSS_nonneg v)]
    simp [hs.ne']
  by_cases h : devSS u u = 0 ∨ devSS v v = 0
  · rw [if_pos (e.2 h), if_pos h]
  · rw [if_neg (fun hc => h (e.1 hc)), if_neg h]
    congr 1
    push Not at h
    have p1 := sqrt_pos.2 (lt_of_le_of_ne (devSS_nonneg u) (Ne.symm h.1))
    have p2 := sqrt_pos.2 (lt_of_le_of_ne (devSS_nonneg v) (Ne.symm h.2))
    rw [div_mul_div_comm, mul_self_sqrt hn1.le]
    field_simp

private lemma expand_aux (X C S : Fin n → ℝ) (q s e : ℝ) (hX : ∑ i, X i = 0) (hC : ∑ i, C i = 0)
    (hS : ∑ i, S i = 0) :
    ∑ i, (X i - q * C i - s * S i + e) ^ 2 = ∑ i, X i * X i - 2 * q * ∑ i, C i * X i - 2 * s * ∑ i, X i * S i
      + q ^ 2 * ∑ i, C i * C i + 2 * q * s * ∑ i, S i * C i + s ^ 2 * ∑ i, S i * S i + n * e ^ 2 := by
  have key : ∀ i, (X i - q * C i - s * S i + e) ^ 2
      = X i * X i - 2 * q * (C i * X i) - 2 * s * (X i * S i) + q ^ 2 * (C i * C i) + 2 * q * s * (S i * C i)
        + s ^ 2 * (S i * S i) + 2 * e * X i - 2 * e * q * C i - 2 * e * s * S i + e ^ 2 := by intro i; ring
  simp only [key, Finset.sum_add_distrib, Finset.sum_sub_distrib, ← Finset.mul_sum, hX, hC, hS, Finset.sum_const,
    Finset.card_univ, Fintype.card_fin, nsmul_eq_mul]
  ring

/-- Sum of squares around any fit, in terms of the deviations. -/
private lemma residual_expand (a x : Fin n → ℝ) (hn : n ≠ 0) (p q s : ℝ) :
    residualSS a x p q s = devSS x x - 2 * q * devSS (fun i => cos (a i)) x - 2 * s * devSS x (fun i => sin (a i))
      + q ^ 2 * devSS (fun i => cos (a i)) (fun i => cos (a i))
      + 2 * q * s * devSS (fun i => sin (a i)) (fun i => cos (a i))
      + s ^ 2 * devSS (fun i => sin (a i)) (fun i => sin (a i))
      + n * ((∑ i, x i) / n - p - q * ((∑ i, cos (a i)) / n) - s * ((∑ i, sin (a i)) / n)) ^ 2 := by
  have hn' : (n : ℝ) ≠ 0 := by exact_mod_cast hn
  have hz : ∀ u : Fin n → ℝ, ∑ i, (u i - (∑ j, u j) / n) = 0 := by
    intro u
    rw [Finset.sum_sub_distrib, Finset.sum_const, Finset.card_univ, Fintype.card_fin, nsmul_eq_mul,
      mul_div_cancel₀ _ hn', sub_self]
  rw [residualSS, ← show ∑ i, (x i - (∑ i, x i) / n - q * (cos (a i) - (∑ i, cos (a i)) / n)
    - s * (sin (a i) - (∑ i, sin (a i)) / n)
    + ((∑ i, x i) / n - p - q * ((∑ i, cos (a i)) / n) - s * ((∑ i, sin (a i)) / n))) ^ 2
    = ∑ i, (x i - (p + q * cos (a i) + s * sin (a i))) ^ 2 from
      Finset.sum_congr rfl fun i _ => by ring]
  exact expand_aux (fun i => x i - (∑ i, x i) / n) (fun i => cos (a i) - (∑ i, cos (a i)) / n)
    (fun i => sin (a i) - (∑ i, sin (a i)) / n) q s _ (hz x) (hz fun i => cos (a i)) (hz fun i => sin (a i))

end Helpers

/-- The value: with at least three pairs, `x`, `cos a` and `sin a` not constant and the data not
degenerate, the coefficient is the multiple correlation coefficient of `x` with `cos a` and `sin a`:
`1 - r²` is the smallest fraction of the variation of `x` that a fit `p + q cos a + s sin a` leaves over.
So `0 ≤ r ≤ 1`. The p value is the chi-square upper tail of `n r²`. -/
theorem C54_value {n : ℕ} (a x : Fin n → ℝ) (cdf : ℝ → ℝ) (hn : 3 ≤ n) (hx : 0 < devSS x x)
    (hc : 0 < devSS (fun i => cos (a i)) (fun i => cos (a i)))
    (hs : 0 < devSS (fun i => sin (a i)) (fun i => sin (a i))) (hg : 1 / 10 ^ 8 < trigGap a) :
    ∃ res r, corrcl (List.ofFn a) (List.ofFn x) cdf = .ok res ∧ res.r = some r ∧ 0 ≤ r ∧ r ≤ 1 ∧
      IsLeast {v | ∃ p q s, v = residualSS a x p q s} ((1 - r ^ 2) * devSS x x) ∧
      res.pval = some (1 - cdf (n * r ^ 2)) := by
  have hn0 : n ≠ 0 := by omega
  set X := devSS x x with hX
  set C := devSS (fun i => cos (a i)) (fun i => cos (a i)) with hC
  set S := devSS (fun i => sin (a i)) (fun i => sin (a i)) with hS
  set XC := devSS (fun i => cos (a i)) x with hXC
  set XS := devSS x (fun i => sin (a i)) with hXS
  set CS := devSS (fun i => sin (a i)) (fun i => cos (a i)) with hCS
  have hgap : trigGap a = 1 - CS ^ 2 / (S * C) := rfl
  have hD : 0 < C * S - CS ^ 2 := by
    have h1 : 0 < 1 - CS ^ 2 / (S * C) := lt_trans (by norm_num) (hgap ▸ hg)
    have h2 : CS ^ 2 / (S * C) < 1 := by linarith
    rw [div_lt_one (by positivity)] at h2
    linarith [mul_comm S C]
  set D := C * S - CS ^ 2 with hDdef
  set T := (XC ^ 2 * S + XS ^ 2 * C - 2 * XC * XS * CS) / D with hT
  have hT0 : 0 ≤ T := by
    refine div_nonneg ?_ hD.le
    nlinarith [sq_nonneg (XC * S - XS * CS), mul_nonneg (sq_nonneg XS) hD.le, hs, hc]
  -- least residual sum of squares
  have hexp := residual_expand a x hn0
  simp only [← hX, ← hC, ← hS, ← hXC, ← hXS, ← hCS] at hexp
  set β := (XC * S - XS * CS) / D with hβ
  set γ := (XS * C - XC * CS) / D with hγ
  have n1 : β * C + γ * CS = XC := by rw [hβ, hγ]; field_simp; rw [hDdef]; ring
  have n2 : β * CS + γ * S = XS := by rw [hβ, hγ]; field_simp; rw [hDdef]; ring
  have hTβ : T = β * XC + γ * XS := by rw [hT, hβ, hγ]; field_simp; ring
  have hleast : IsLeast {v | ∃ p q s, v = residualSS a x p q s} (X - T) := by
    constructor
    · refine ⟨(∑ i, x i) / n - β * ((∑ i, cos (a i)) / n) - γ * ((∑ i, sin (a i)) / n), β, γ, ?_⟩
      rw [hexp, hTβ]
      linear_combination (-β) * n1 - γ * n2
    · rintro v ⟨p, q, s, rfl⟩
      rw [hexp, hTβ]
      have hq : 0 ≤ (q - β) ^ 2 * C + 2 * (q - β) * (s - γ) * CS + (s - γ) ^ 2 * S := by
        have h1 : 0 ≤ C * ((q - β) ^ 2 * C + 2 * (q - β) * (s - γ) * CS + (s - γ) ^ 2 * S) := by
          have : C * ((q - β) ^ 2 * C + 2 * (q - β) * (s - γ) * CS + (s - γ) ^ 2 * S)
              = ((q - β) * C + (s - γ) * CS) ^ 2 + (s - γ) ^ 2 * D := by rw [hDdef]; ring
          rw [this]; positivity
        exact nonneg_of_mul_nonneg_right h1 hc
      have hlast : 0 ≤ (n : ℝ) * ((∑ i, x i) / n - p - q * ((∑ i, cos (a i)) / n) - s * ((∑ i, sin (a i)) / n)) ^ 2 := by
        positivity
      have hid : q ^ 2 * C + 2 * q * s * CS + s ^ 2 * S - 2 * q * XC - 2 * s * XS + (β * XC + γ * XS)
          = (q - β) ^ 2 * C + 2 * (q - β) * (s - γ) * CS + (s - γ) ^ 2 * S := by
        rw [← n1, ← n2]; ring
      linarith
  have hTX : T ≤ X := by
    obtain ⟨p, q, s, h⟩ := hleast.1
    have : 0 ≤ residualSS a x p q s := Finset.sum_nonneg fun _ _ => sq_nonneg _
    linarith
  -- the code
  have sX := sqrt_pos.2 hx
  have sC := sqrt_pos.2 hc
  have sS := sqrt_pos.2 hs
  have qX := sq_sqrt hx.le
  have qC := sq_sqrt hc.le
  have qS := sq_sqrt hs.le
  have hnum : ((XC / (sqrt C * sqrt X)) ^ 2 + (XS / (sqrt X * sqrt S)) ^ 2
      - 2 * (XC / (sqrt C * sqrt X)) * (XS / (sqrt X * sqrt S)) * (CS / (sqrt S * sqrt C)))
      / (1 - (CS / (sqrt S * sqrt C)) ^ 2) = T / X := by
    have e1 : (CS / (sqrt S * sqrt C)) ^ 2 = CS ^ 2 / (S * C) := by
      rw [div_pow, mul_pow, qS, qC]
    have e2 : (XC / (sqrt C * sqrt X)) ^ 2 = XC ^ 2 / (C * X) := by rw [div_pow, mul_pow, qC, qX]
    have e3 : (XS / (sqrt X * sqrt S)) ^ 2 = XS ^ 2 / (X * S) := by rw [div_pow, mul_pow, qX, qS]
    have e4 : 2 * (XC / (sqrt C * sqrt X)) * (XS / (sqrt X * sqrt S)) * (CS / (sqrt S * sqrt C))
        = 2 * XC * XS * CS / (C * S * X) := by
      have h' : 2 * (XC / (sqrt C * sqrt X)) * (XS / (sqrt X * sqrt S)) * (CS / (sqrt S * sqrt C))
          = 2 * XC * XS * CS / (sqrt C ^ 2 * sqrt S ^ 2 * sqrt X ^ 2) := by field_simp
      rw [h', qC, qS, qX]
    rw [e1, e2, e3, e4, hT]
    have hD' : C * S - CS ^ 2 ≠ 0 := hD.ne'
    have hg' : 1 - CS ^ 2 / (S * C) ≠ 0 := by
      have : 1 - CS ^ 2 / (S * C) = (C * S - CS ^ 2) / (S * C) := by field_simp
      rw [this]; positivity
    have : 1 - CS ^ 2 / (S * C) = D / (S * C) := by rw [hDdef]; field_simp
    rw [this]
    have hDne : D ≠ 0 := hD.ne'
    field_simp
  have hr0 : 0 ≤ T / X := by positivity
  have hden : 1 - (CS / (sqrt S * sqrt C)) ^ 2 = trigGap a := by
    rw [hgap, div_pow, mul_pow, qS, qC]
  unfold corrcl
  rw [if_neg (by simp), if_neg (by simp; omega)]
  rw [List.map_ofFn, List.map_ofFn, corrcoef_ofFn _ _ (by omega), corrcoef_ofFn _ _ (by omega),
    corrcoef_ofFn _ _ (by omega)]
  simp only [Function.comp_def, List.length_ofFn, ← hX, ← hC, ← hS, ← hXC, ← hXS, ← hCS]
  rw [if_neg (by push Not; exact ⟨hc.ne', hx.ne'⟩), if_neg (by push Not; exact ⟨hx.ne', hs.ne'⟩),
    if_neg (by push Not; exact ⟨hs.ne', hc.ne'⟩)]
  unfold corrclOf
  simp only [hnum]
  rw [if_neg (by
    rw [hden, isclose_zero _ _ _ (le_trans (by norm_num) hg.le)]; exact not_le.2 hg)]
  refine ⟨_, sqrt (T / X), rfl, by rw [max_eq_left hr0], sqrt_nonneg _, ?_, ?_, ?_⟩
  · rw [sqrt_le_one]
    exact div_le_one_of_le₀ hTX hx.le
  · rw [sq_sqrt hr0]
    have : (1 - T / X) * X = X - T := by field_simp
    rw [this]; exact hleast
  · rw [max_eq_left hr0]

private lemma devSS_pos_or {n : ℕ} (u : Fin n → ℝ) : devSS u u = 0 ∨ 0 < devSS u u := by
  rcases (devSS_nonneg u).eq_or_lt with h | h
  · exact Or.inl h.symm
  · exact Or.inr h

private lemma trigGap_nonneg {n : ℕ} (a : Fin n → ℝ) : 0 ≤ trigGap a := by
  unfold trigGap
  rw [sub_nonneg]
  refine div_le_one_of_le₀ ?_ (mul_nonneg (devSS_nonneg _) (devSS_nonneg _))
  have := Finset.sum_mul_sq_le_sq_mul_sq (Finset.univ : Finset (Fin n))
    (fun i => sin (a i) - (∑ j, sin (a j)) / n) (fun i => cos (a i) - (∑ j, cos (a j)) / n)
  simpa only [devSS, pow_two] using this

private lemma corrcl_unfold {n : ℕ} (a x : Fin n → ℝ) (cdf : ℝ → ℝ) (hn : 3 ≤ n) :
    (devSS (fun i => cos (a i)) (fun i => cos (a i)) = 0 ∨ devSS (fun i => sin (a i)) (fun i => sin (a i)) = 0 →
      corrcl (List.ofFn a) (List.ofFn x) cdf = .ok { r := none }) ∧
    (0 < devSS (fun i => cos (a i)) (fun i => cos (a i)) → 0 < devSS (fun i => sin (a i)) (fun i => sin (a i)) →
      (trigGap a ≤ 1 / 10 ^ 8 → corrcl (List.ofFn a) (List.ofFn x) cdf = .error .valueError) ∧
      (1 / 10 ^ 8 < trigGap a → devSS x x = 0 → corrcl (List.ofFn a) (List.ofFn x) cdf = .ok { r := none })) := by
  have hu : corrcl (List.ofFn a) (List.ofFn x) cdf = corrclOf n
      (if devSS (fun i => cos (a i)) (fun i => cos (a i)) = 0 ∨ devSS x x = 0 then none
        else some (devSS (fun i => cos (a i)) x / (sqrt (devSS (fun i => cos (a i)) fun i => cos (a i)) * sqrt (devSS x x))))
      (if devSS x x = 0 ∨ devSS (fun i => sin (a i)) (fun i => sin (a i)) = 0 then none
        else some (devSS x (fun i => sin (a i)) / (sqrt (devSS x x) * sqrt (devSS (fun i => sin (a i)) fun i => sin (a i)))))
      (if devSS (fun i => sin (a i)) (fun i => sin (a i)) = 0 ∨ devSS (fun i => cos (a i)) (fun i => cos (a i)) = 0 then none
        else some (devSS (fun i => sin (a i)) (fun i => cos (a i)) /
          (sqrt (devSS (fun i => sin (a i)) fun i => sin (a i)) * sqrt (devSS (fun i => cos (a i)) fun i => cos (a i))))) cdf := by
    unfold corrcl
    rw [if_neg (by simp), if_neg (by simp; omega), List.map_ofFn, List.map_ofFn, corrcoef_ofFn _ _ (by omega),
      corrcoef_ofFn _ _ (by omega), corrcoef_ofFn _ _ (by omega), List.length_ofFn]
    rfl
  refine ⟨fun h => ?_, fun hc hs => ?_⟩
  · rw [hu, if_pos h.symm]
    rfl
  · have hden : 1 - (devSS (fun i => sin (a i)) (fun i => cos (a i)) /
          (sqrt (devSS (fun i => sin (a i)) fun i => sin (a i)) * sqrt (devSS (fun i => cos (a i)) fun i => cos (a i)))) ^ 2
          = trigGap a := by
      rw [div_pow, mul_pow, sq_sqrt hs.le, sq_sqrt hc.le, trigGap]
    have h3 : ¬ (devSS (fun i => sin (a i)) (fun i => sin (a i)) = 0 ∨ devSS (fun i => cos (a i)) (fun i => cos (a i)) = 0) := by
      push Not; exact ⟨hs.ne', hc.ne'⟩
    refine ⟨fun hg => ?_, fun hg hx => ?_⟩
    · rw [hu, if_neg h3]
      unfold corrclOf
      simp only
      rw [if_pos (by rw [hden, isclose_zero _ _ _ (trigGap_nonneg a)]; exact hg)]
    · rw [hu, if_neg h3, if_pos (Or.inr hx), if_pos (Or.inl hx)]
      unfold corrclOf
      simp only
      rw [if_neg (by rw [hden, isclose_zero _ _ _ (trigGap_nonneg a)]; exact not_le.2 hg)]

/-- A number is returned exactly in the situation of `C54_value`. -/
theorem C54_defined {n : ℕ} (a x : Fin n → ℝ) (cdf : ℝ → ℝ) :
    (∃ res r, corrcl (List.ofFn a) (List.ofFn x) cdf = .ok res ∧ res.r = some r) ↔
      3 ≤ n ∧ 0 < devSS x x ∧ 0 < devSS (fun i => cos (a i)) (fun i => cos (a i)) ∧
        0 < devSS (fun i => sin (a i)) (fun i => sin (a i)) ∧ 1 / 10 ^ 8 < trigGap a := by
  constructor
  · rintro ⟨res, r, h, hr⟩
    by_cases hn : 3 ≤ n
    swap
    · unfold corrcl at h
      rw [if_neg (by simp), if_pos (by simp; omega)] at h
      cases h
    obtain ⟨h1, h2⟩ := corrcl_unfold a x cdf hn
    rcases devSS_pos_or (fun i => cos (a i)) with hc | hc
    · rw [h1 (Or.inl hc)] at h; cases h; cases hr
    rcases devSS_pos_or (fun i => sin (a i)) with hs | hs
    · rw [h1 (Or.inr hs)] at h; cases h; cases hr
    obtain ⟨h3, h4⟩ := h2 hc hs
    rcases le_or_gt (trigGap a) (1 / 10 ^ 8) with hg | hg
    · rw [h3 hg] at h; cases h
    rcases devSS_pos_or x with hx | hx
    · rw [h4 hg hx] at h; cases h; cases hr
    exact ⟨hn, hx, hc, hs, hg⟩
  · rintro ⟨hn, hx, hc, hs, hg⟩
    obtain ⟨res, r, h, hr, -⟩ := C54_value a x cdf hn hx hc hs hg
    exact ⟨res, r, h, hr⟩

/-- A `ValueError` is raised exactly for different or too small sizes, and for angles whose sines and
cosines are (numerically) linearly dependent without either being constant. -/
theorem C54_refused {m n : ℕ} (a : Fin m → ℝ) (x : Fin n → ℝ) (cdf : ℝ → ℝ) :
    corrcl (List.ofFn a) (List.ofFn x) cdf = .error .valueError ↔
      m ≠ n ∨ m < 3 ∨ (0 < devSS (fun i => cos (a i)) (fun i => cos (a i)) ∧
        0 < devSS (fun i => sin (a i)) (fun i => sin (a i)) ∧ trigGap a ≤ 1 / 10 ^ 8) := by
  by_cases hmn : m = n
  swap
  · unfold corrcl
    simp [hmn]
  subst hmn
  by_cases hn : m < 3
  · unfold corrcl
    simp [hn]
  obtain ⟨h1, h2⟩ := corrcl_unfold a x cdf (by omega)
  simp only [ne_eq, not_true_eq_false, hn, false_or]
  rcases devSS_pos_or (fun i => cos (a i)) with hc | hc
  · rw [h1 (Or.inl hc)]; simp [hc]
  rcases devSS_pos_or (fun i => sin (a i)) with hs | hs
  · rw [h1 (Or.inr hs)]; simp [hs]
  obtain ⟨h3, h4⟩ := h2 hc hs
  simp only [hc, hs, true_and]
  rcases le_or_gt (trigGap a) (1 / 10 ^ 8) with hg | hg
  · rw [h3 hg]; simp only [hg]
  rcases devSS_pos_or x with hx | hx
  · rw [h4 hg hx]; simp only [reduceCtorEq, not_le.2 hg]
  · obtain ⟨res, r, h, -⟩ := C54_value a x cdf (by omega) hx hc hs hg
    rw [h]; simp only [reduceCtorEq, not_le.2 hg]

/-- Whenever two calls both return a number, on the same data with the angles turned (whole turns
ignored) and `x` rescaled and shifted, the two numbers are the same. -/
theorem C54_invariant {n : ℕ} (a x a' x' : Fin n → ℝ) (t u v : ℝ) (cdf : ℝ → ℝ) (hu : u ≠ 0)
    (ha : ∀ i, SameDir (a' i) (a i + t)) (hx : ∀ i, x' i = u * x i + v)
    (res res' : CorrelationResult) (r r' : ℝ)
    (h : corrcl (List.ofFn a) (List.ofFn x) cdf = .ok res) (hr : res.r = some r)
    (h' : corrcl (List.ofFn a') (List.ofFn x') cdf = .ok res') (hr' : res'.r = some r') :
    r' = r ∧ res'.pval = res.pval := by
  obtain ⟨hn, c1, c2, c3, c4⟩ := (C54_defined a x cdf).1 ⟨res, r, h, hr⟩
  obtain ⟨hn', d1, d2, d3, d4⟩ := (C54_defined a' x' cdf).1 ⟨res', r', h', hr'⟩
  obtain ⟨q, ρ, e1, e2, e3, e4, e5, e6⟩ := C54_value a x cdf hn c1 c2 c3 c4
  obtain ⟨q', ρ', f1, f2, f3, f4, f5, f6⟩ := C54_value a' x' cdf hn' d1 d2 d3 d4
  rw [h] at e1; cases e1
  rw [h'] at f1; cases f1
  rw [hr] at e2; cases e2
  rw [hr'] at f2; cases f2
  have hn0 : (n : ℝ) ≠ 0 := by
    have : n ≠ 0 := by omega
    exact_mod_cast this
  have hss : devSS x' x' = u ^ 2 * devSS x x := by
    unfold devSS
    rw [Finset.mul_sum]
    refine Finset.sum_congr rfl fun i _ => ?_
    have : (∑ j, x' j) / n = u * ((∑ j, x j) / n) + v := by
      simp only [hx, Finset.sum_add_distrib, ← Finset.mul_sum, Finset.sum_const, Finset.card_univ, Fintype.card_fin,
        nsmul_eq_mul]
      field_simp
    rw [this, hx]
    ring
  have hres : ∀ p q s, residualSS a' x' (u * p + v) (u * (q * cos t - s * sin t)) (u * (q * sin t + s * cos t))
      = u ^ 2 * residualSS a x p q s := by
    intro p q s
    unfold residualSS
    rw [Finset.mul_sum]
    refine Finset.sum_congr rfl fun i _ => ?_
    rw [hx, cos_eq_of_sameDir (ha i), sin_eq_of_sameDir (ha i), cos_add, sin_add]
    have hcs := sin_sq_add_cos_sq t
    have : u * p + v + u * (q * cos t - s * sin t) * (cos (a i) * cos t - sin (a i) * sin t)
        + u * (q * sin t + s * cos t) * (sin (a i) * cos t + cos (a i) * sin t)
        = u * (p + q * cos (a i) + s * sin (a i)) + v := by
      linear_combination (u * q * cos (a i) + u * s * sin (a i)) * hcs
    rw [this]
    ring
  have hu2 : 0 < u ^ 2 := by positivity
  have hkey : IsLeast {w | ∃ p q s, w = residualSS a' x' p q s} (u ^ 2 * ((1 - r ^ 2) * devSS x x)) := by
    constructor
    · obtain ⟨p, q, s, hp⟩ := e5.1
      exact ⟨_, _, _, by rw [hp, hres p q s]⟩
    · rintro w ⟨p, q, s, rfl⟩
      have := hres ((p - v) / u) ((q * cos t + s * sin t) / u) ((-q * sin t + s * cos t) / u)
      have hcs := sin_sq_add_cos_sq t
      have g1 : u * ((p - v) / u) + v = p := by field_simp; ring
      have g2 : u * ((q * cos t + s * sin t) / u * cos t - (-q * sin t + s * cos t) / u * sin t) = q := by
        have : u * ((q * cos t + s * sin t) / u * cos t - (-q * sin t + s * cos t) / u * sin t)
            = q * (sin t ^ 2 + cos t ^ 2) := by field_simp; ring
        rw [this, hcs, mul_one]
      have g3 : u * ((q * cos t + s * sin t) / u * sin t + (-q * sin t + s * cos t) / u * cos t) = s := by
        have : u * ((q * cos t + s * sin t) / u * sin t + (-q * sin t + s * cos t) / u * cos t)
            = s * (sin t ^ 2 + cos t ^ 2) := by field_simp; ring
        rw [this, hcs, mul_one]
      rw [g1, g2, g3] at this
      rw [this]
      exact mul_le_mul_of_nonneg_left (e5.2 ⟨_, _, _, rfl⟩) hu2.le
  have heq := hkey.unique f5
  rw [hss] at heq
  have hsq : r' ^ 2 = r ^ 2 := by
    have h1 : u ^ 2 * devSS x x * (r ^ 2 - r' ^ 2) = 0 := by linear_combination -heq
    rcases mul_eq_zero.1 h1 with h2 | h2
    · exact absurd h2 (by positivity)
    · linarith
  refine ⟨(sq_eq_sq₀ f3 e3).1 hsq, by rw [e6, f6, hsq]⟩

/-- Whether a number, `nan` or an exception comes back does depend on the zero direction: with two
directions only, the same data raise a `ValueError` or give `nan` (the sines are constant). -/
theorem C54_rotate_fails (x : Fin 3 → ℝ) (cdf : ℝ → ℝ) :
    corrcl (List.ofFn ![0, 0, π / 2]) (List.ofFn x) cdf = .error .valueError ∧
      corrcl (List.ofFn ![0 + π / 4, 0 + π / 4, π / 2 + π / 4]) (List.ofFn x) cdf = .ok { r := none } := by
  constructor
  · rw [C54_refused]
    right; right
    have e1 : devSS (fun i => cos (![0, 0, π / 2] i)) (fun i => cos (![0, 0, π / 2] i)) = 2 / 3 := by
      simp [devSS, Fin.sum_univ_three]; norm_num
    have e2 : devSS (fun i => sin (![0, 0, π / 2] i)) (fun i => sin (![0, 0, π / 2] i)) = 2 / 3 := by
      simp [devSS, Fin.sum_univ_three]; norm_num
    have e3 : devSS (fun i => sin (![0, 0, π / 2] i)) (fun i => cos (![0, 0, π / 2] i)) = -(2 / 3) := by
      simp [devSS, Fin.sum_univ_three]; norm_num
    refine ⟨by rw [e1]; norm_num, by rw [e2]; norm_num, ?_⟩
    unfold trigGap
    rw [e1, e2, e3]
    norm_num
  · refine (corrcl_unfold _ x cdf (le_refl 3)).1 (Or.inr ?_)
    have h : sin (π / 2 + π / 4) = sin (π / 4) := by
      rw [← sin_pi_sub]; congr 1; ring
    simp [devSS, Fin.sum_univ_three, h]
    ring

/-- Three directions and an increasing variable meet the hypotheses of `C54_value`. -/
example : 0 < devSS ![1, 2, 4] ![1, 2, 4] ∧
    0 < devSS (fun i => cos (![0, π / 2, π] i)) (fun i => cos (![0, π / 2, π] i)) ∧
    0 < devSS (fun i => sin (![0, π / 2, π] i)) (fun i => sin (![0, π / 2, π] i)) ∧
    1 / 10 ^ 8 < trigGap ![0, π / 2, π] := by
  have e1 : devSS (fun i => cos (![0, π / 2, π] i)) (fun i => cos (![0, π / 2, π] i)) = 2 := by
    simp [devSS, Fin.sum_univ_three]; norm_num
  have e2 : devSS (fun i => sin (![0, π / 2, π] i)) (fun i => sin (![0, π / 2, π] i)) = 2 / 3 := by
    simp [devSS, Fin.sum_univ_three]; norm_num
  have e3 : devSS (fun i => sin (![0, π / 2, π] i)) (fun i => cos (![0, π / 2, π] i)) = 0 := by
    simp [devSS, Fin.sum_univ_three]
  refine ⟨?_, by rw [e1]; norm_num, by rw [e2]; norm_num, by unfold trigGap; rw [e1, e2, e3]; norm_num⟩
  simp [devSS, Fin.sum_univ_three]
  norm_num

end Verif.Props
