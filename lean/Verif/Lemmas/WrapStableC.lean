import Verif.Lemmas.WrapStableB
import Mathlib.Analysis.Real.Pi.Bounds

/-!
# Helper lemmas: where the truncated series of the wrapped stable distribution is negative
-/

set_option autoImplicit false

namespace Verif

open Real MeasureTheory Verif.Spec

/-- `α = 2` with an odd number of terms: at the angle opposite to `δ` the discarded terms alternate. -/
lemma wsPdf_opposite {s : WS} (hs : wsArgcheck s) (ha : s.alpha = 2) (hodd : Odd (wsOrder s)) {x : ℝ}
    (hx : cos (x - s.delta) = -1) :
    wsPdf x s ≤ wrappedNormal s.delta (√2 * s.gamma) x
      - (exp (-s.gamma ^ 2) ^ ((wsOrder s + 1) ^ 2) - exp (-s.gamma ^ 2) ^ ((wsOrder s + 2) ^ 2)) / π := by
  have hg0 := hs.2.2.2
  obtain ⟨r, hr⟩ : ∃ r, r = exp (-s.gamma ^ 2) := ⟨_, rfl⟩
  have hr1 : r < 1 := hr ▸ ws_exp_lt (by nlinarith)
  have hr0 : 0 < r := hr ▸ exp_pos _
  have e0 : √(-2 * log r) = √2 * s.gamma := by
    rw [hr, log_exp, show -2 * -s.gamma ^ 2 = 2 * s.gamma ^ 2 by ring, sqrt_mul (by norm_num), sqrt_sq hg0.le]
  have hser := wn_series hr0 hr1 s.delta x
  rw [e0] at hser
  have hS := wnTerm_summable hr0.le hr1 (x - s.delta)
  have e : ∀ i : ℕ, wsRho s ((i : ℝ) + 1) = r ^ ((i + 1) ^ 2) := fun i => by
    rw [hr, ← wsRho_two ha]; push_cast; rfl
  have hsum : wsPdf x s = (1 + ∑ i ∈ Finset.range (wsOrder s), wnTerm r (x - s.delta) i) / (2 * π) := by
    rw [wsPdf_sym (Or.inr ha)]
    simp only [e]
    congr 2
    refine Finset.sum_congr rfl fun i _ => ?_
    unfold wnTerm
    ring
  obtain ⟨P, hP⟩ : ∃ P, P = wsOrder s := ⟨_, rfl⟩
  rw [← hr, hsum, hser, ← hS.sum_add_tsum_nat_add (wsOrder s), ← hP]
  rw [← hP] at hodd
  have hsh := ((summable_nat_add_iff P).mpr hS).hasSum.tendsto_sum_nat
  obtain ⟨b, hb⟩ : ∃ b : ℕ → ℝ, b = fun n => 2 * r ^ ((n + P + 1) ^ 2) := ⟨_, rfl⟩
  have ht : ∀ n, wnTerm r (x - s.delta) (n + P) = (-1) ^ n * b n := fun n => by
    unfold wnTerm
    rw [hb, cos_nat_opposite hx, show n + P + 1 = n + (P + 1) by ring, pow_add (-1 : ℝ) n (P + 1),
      Even.neg_one_pow (hodd.add_one)]
    ring
  simp only [ht] at hsh ⊢
  have hanti : Antitone b := by
    rw [hb]
    intro m n hmn
    exact mul_le_mul_of_nonneg_left (pow_le_pow_of_le_one hr0.le hr1.le (Nat.pow_le_pow_left (by omega) 2)) two_pos.le
  have h2 := hanti.alternating_series_le_tendsto hsh 1
  have e2 : ∑ i ∈ Finset.range (2 * 1), (-1) ^ i * b i = 2 * r ^ ((P + 1) ^ 2) - 2 * r ^ ((P + 2) ^ 2) := by
    rw [hb]
    simp [Finset.sum_range_succ]
    rw [show 1 + P + 1 = P + 2 by ring]
    ring
  rw [e2] at h2
  have e3 : (r ^ ((P + 1) ^ 2) - r ^ ((P + 2) ^ 2)) / π = (2 * r ^ ((P + 1) ^ 2) - 2 * r ^ ((P + 2) ^ 2)) / (2 * π) := by
    field_simp
  rw [e3, ← sub_div]
  refine div_le_div_of_nonneg_right ?_ two_pi_pos.le
  linarith

lemma wsPdf_opposite_neg {s : WS} (hs : wsArgcheck s) (ha : s.alpha = 2) (hg : 3 / 10 ^ 4 ≤ s.gamma)
    (hg' : s.gamma ≤ 1 / 10) (hodd : Odd (wsOrder s)) {x : ℝ} (hx : cos (x - s.delta) = -1) : wsPdf x s < 0 := by
  have hg0 := hs.2.2.2
  have h1 := wsPdf_opposite hs ha hodd hx
  have hsg : 0 < √2 * s.gamma := by positivity
  have h2 := wn_opposite_upper hsg hx
  obtain ⟨hP, ht, h5⟩ := ws_normal_tail hs ha hg
  have hPpos := wsOrder_pos hs
  have hprev := ((wsOrder_iff hs (wsOrder s - 1)).1 (by omega)).2
  have hprev' : (s.gamma * (wsOrder s - 1)) ^ 2 < 28 := by
    have := mt (wsRho_le_iff s ((wsOrder s - 1 : ℕ) : ℝ)).2 (not_le.2 hprev)
    rw [ha, rpow_two, Nat.cast_sub hPpos, Nat.cast_one] at this
    have hL := log_ten_lt
    push Not at this
    linarith
  obtain ⟨P, hPd⟩ : ∃ P, P = wsOrder s := ⟨_, rfl⟩
  obtain ⟨g, hgd⟩ : ∃ g, g = s.gamma := ⟨_, rfl⟩
  rw [← hPd] at h5 hprev' h1
  rw [← hgd] at h5 hprev' h1 h2 hg hg' hsg hg0
  have hpi := pi_gt_d2
  have hpi' := pi_lt_d2
  have hsq : (√2 * g) ^ 2 = 2 * g ^ 2 := by rw [mul_pow, sq_sqrt (by norm_num)]
  -- `γ (P + 1) ≤ 5.5`
  have hPg : g * (P + 1) ≤ 55 / 10 := by
    have : g * (P - 1) ≤ 53 / 10 := abs_le_of_sq_le_sq' (by norm_num; linarith) (by norm_num) |>.2
    linarith
  suffices hfin : 2 * gk (√2 * g) π / (1 - wnRatio (√2 * g))
      < (exp (-g ^ 2) ^ ((P + 1) ^ 2) - exp (-g ^ 2) ^ ((P + 2) ^ 2)) / π by linarith
  obtain ⟨t, htd⟩ : ∃ t, t = 1 / g := ⟨_, rfl⟩
  have hgt : g * t = 1 := by rw [htd]; field_simp
  have ht10 : 10 ≤ t := by rw [htd, le_div_iff₀ hg0]; linarith
  have hratio : wnRatio (√2 * g) ≤ 1 / 2 := by
    unfold wnRatio
    rw [hsq]
    have h2 := add_one_le_exp (2 * π ^ 2 / (2 * g ^ 2))
    have h4 : 1 ≤ 2 * π ^ 2 / (2 * g ^ 2) := by rw [le_div_iff₀ (by positivity)]; nlinarith only [hpi, hg', hg0]
    have h3 := exp_pos (-(2 * π ^ 2 / (2 * g ^ 2)))
    have : exp (-(2 * π ^ 2 / (2 * g ^ 2))) * exp (2 * π ^ 2 / (2 * g ^ 2)) = 1 := by rw [← exp_add]; simp
    nlinarith only [this, h2, h4, h3]
  have hgp := gk_pos hsg π
  have step1 : 2 * gk (√2 * g) π / (1 - wnRatio (√2 * g)) ≤ 4 * gk (√2 * g) π := by
    rw [div_le_iff₀ (by linarith)]
    nlinarith only [hratio, hgp]
  refine step1.trans_lt ?_
  -- the discarded terms
  have hA : exp (-(121 / 4)) * (5 * g) ≤ exp (-g ^ 2) ^ ((P + 1) ^ 2) - exp (-g ^ 2) ^ ((P + 2) ^ 2) := by
    have e1 : exp (-g ^ 2) ^ ((P + 2) ^ 2) = exp (-g ^ 2) ^ ((P + 1) ^ 2) * exp (-g ^ 2) ^ (2 * P + 3) := by
      rw [← pow_add]; congr 1; ring
    have e2 : exp (-(121 / 4)) ≤ exp (-g ^ 2) ^ ((P + 1) ^ 2) := by
      rw [← exp_nat_mul, exp_le_exp]
      push_cast
      have : (g * (P + 1)) ^ 2 ≤ (55 / 10) ^ 2 := pow_le_pow_left₀ (by positivity) hPg 2
      norm_num at this
      linarith only [this, show ((P : ℝ) + 1) ^ 2 * g ^ 2 = (g * (P + 1)) ^ 2 by ring]
    have e3 : exp (-g ^ 2) ^ (2 * P + 3) ≤ exp (-(10 * g)) := by
      rw [← exp_nat_mul, exp_le_exp]
      push_cast
      nlinarith only [h5, hg0, mul_pos hg0 hg0]
    have e4 : 5 * g ≤ 1 - exp (-(10 * g)) := by
      have a := add_one_le_exp (10 * g)
      have b : exp (-(10 * g)) * exp (10 * g) = 1 := by rw [← exp_add]; simp
      have c := exp_pos (-(10 * g))
      have d : exp (-(10 * g)) * (1 + 10 * g) ≤ 1 := by nlinarith only [a, b, c]
      by_contra hcon
      push Not at hcon
      nlinarith only [hcon, d, hg0, hg', c]
    rw [e1, show ∀ a b : ℝ, a - a * b = a * (1 - b) by intro a b; ring]
    exact mul_le_mul e2 (by linarith) (by positivity) (exp_pos _ |> fun h => pow_nonneg h.le _)
  refine lt_of_lt_of_le ?_ (div_le_div_of_nonneg_right hA pi_pos.le)
  rw [lt_div_iff₀ pi_pos]
  unfold gk
  rw [hsq]
  have hroot : 2 * g ≤ √2 * g * √(2 * π) := by
    have : (2 : ℝ) ≤ √2 * √(2 * π) := by
      rw [← sqrt_mul (by norm_num)]
      exact le_sqrt_of_sq_le (by linarith)
    calc 2 * g ≤ √2 * √(2 * π) * g := mul_le_mul_of_nonneg_right this hg0.le
      _ = _ := by ring
  have hexp : exp (-π ^ 2 / (2 * (2 * g ^ 2))) ≤ exp (-(121 / 4)) * exp (-(21 * t)) := by
    rw [← exp_add, exp_le_exp]
    have e : -π ^ 2 / (2 * (2 * g ^ 2)) = -(π ^ 2 / 4 * t ^ 2) := by rw [htd]; field_simp; ring
    rw [e]
    have e1 : 246 / 100 ≤ π ^ 2 / 4 := by nlinarith only [hpi]
    have e2 : 10 * t ≤ t ^ 2 := by nlinarith only [ht10]
    have e3 : 246 / 100 * (10 * t) ≤ π ^ 2 / 4 * t ^ 2 := mul_le_mul e1 e2 (by linarith) (by positivity)
    linarith
  have h21 : exp (-(21 * t)) * (1 + 21 * t + (21 * t) ^ 2 / 2) ≤ 1 := by
    have a := quadratic_le_exp_of_nonneg (show 0 ≤ 21 * t by linarith)
    have b : exp (-(21 * t)) * exp (21 * t) = 1 := by rw [← exp_add]; simp
    exact (mul_le_mul_of_nonneg_left a (exp_pos _).le).trans_eq b
  have hx1 : exp (-(21 * t)) < g * (5 * g) * (1 / 7) := by
    have hg2 : g = 1 / t := by rw [htd]; field_simp
    have ht0 : 0 < t := by linarith
    rw [hg2, show 1 / t * (5 * (1 / t)) * (1 / 7) = 5 / 7 / t ^ 2 by field_simp, lt_div_iff₀ (by positivity)]
    have c := exp_pos (-(21 * t))
    nlinarith only [mul_pos c ht0, mul_pos c (pow_pos ht0 2), h21, c]
  calc 4 * (exp (-π ^ 2 / (2 * (2 * g ^ 2))) / (√2 * g * √(2 * π))) * π
      ≤ 4 * (exp (-(121 / 4)) * exp (-(21 * t)) / (2 * g)) * π := by gcongr
    _ = exp (-(121 / 4)) * (exp (-(21 * t)) * (2 * π / g)) := by field_simp; ring
    _ < exp (-(121 / 4)) * (5 * g) := by
        refine mul_lt_mul_of_pos_left ?_ (exp_pos _)
        rw [mul_div_assoc', div_lt_iff₀ hg0]
        have c := exp_pos (-(21 * t))
        have e1 : exp (-(21 * t)) * (2 * π) ≤ exp (-(21 * t)) * 7 := mul_le_mul_of_nonneg_left (by linarith) c.le
        linarith

/-! ## Narrow distributions: the limit on the number of terms -/

lemma wsOrder_capped {s : WS} (hs : wsArgcheck s) (h : (s.gamma * 20000) ^ s.alpha < 27) : wsOrder s = 20001 := by
  have hL := log_ten_gt
  have h1 : 1 / 10 ^ 12 < wsRho s ((20000 : ℕ) : ℝ) := by
    rw [← not_le, wsRho_le_iff]
    push_cast
    push Not
    linarith
  have h2 := (wsOrder_iff hs 20000).2 ⟨le_rfl, h1⟩
  have h3 : ¬ 20001 + 1 ≤ wsOrder s := fun hc => by
    have := ((wsOrder_iff hs 20001).1 hc).1
    omega
  omega

lemma ws_narrow_order {s : WS} (hs : wsArgcheck s) (ha : 1 ≤ s.alpha) (hg : s.gamma ≤ 1 / 10 ^ 6) : wsOrder s = 20001 := by
  refine wsOrder_capped hs ?_
  have hg0 := hs.2.2.2
  have h1 : s.gamma * 20000 ≤ 1 := by norm_num at hg ⊢; linarith
  exact (rpow_le_one (by positivity) h1 (by linarith)).trans_lt (by norm_num)

lemma ws_narrow_rho {s : WS} (hs : wsArgcheck s) (ha : 1 ≤ s.alpha) (hg : s.gamma ≤ 1 / 10 ^ 6) {p : ℕ} (hp : p ≤ 20001) :
    1 - p / 10 ^ 6 ≤ wsRho s p ∧ wsRho s p ≤ 1 := by
  have hg0 := hs.2.2.2
  have hp' : (p : ℝ) ≤ 20001 := by exact_mod_cast hp
  have hgp : s.gamma * p ≤ p / 10 ^ 6 := by
    calc s.gamma * p ≤ 1 / 10 ^ 6 * p := mul_le_mul_of_nonneg_right hg (by positivity)
      _ = _ := by ring
  have h0 : 0 ≤ s.gamma * p := by positivity
  have h1 : s.gamma * p ≤ 1 := by norm_num at hgp ⊢; linarith
  have h2 : (s.gamma * p) ^ s.alpha ≤ s.gamma * p := by
    rcases h0.eq_or_lt with h | h
    · rw [← h, zero_rpow (by linarith)]
    · calc _ ≤ (s.gamma * p) ^ (1 : ℝ) := rpow_le_rpow_of_exponent_ge h h1 ha
        _ = _ := rpow_one _
  have h3 : 0 ≤ (s.gamma * p) ^ s.alpha := by positivity
  unfold wsRho
  constructor
  · have := add_one_le_exp (-(s.gamma * p) ^ s.alpha)
    linarith
  · rw [exp_le_one_iff]; linarith

/-- Close to `δ` a symmetric narrow wrapped stable density is far below zero. -/
lemma ws_narrow_neg {s : WS} (hs : wsArgcheck s) (hb : s.beta = 0) (ha : 1 ≤ s.alpha) (hg : s.gamma ≤ 1 / 10 ^ 6) {d : ℝ}
    (hd : d = 3 * π / 40003 ∨ d = -(3 * π / 40003)) : wsPdf (s.delta + d) s < -1200 := by
  have hpi := pi_lt_d2
  have hpi' := pi_gt_three
  rw [wsPdf_sym (Or.inl hb), ws_narrow_order hs ha hg, add_sub_cancel_left]
  have hsum : ∑ i ∈ Finset.range 20001, 2 * wsRho s (i + 1) * cos ((i + 1 : ℕ) * d)
      ≤ 2 * ∑ i ∈ Finset.range 20001, cos ((i + 1 : ℕ) * d) + 401 := by
    have h1 : ∀ i ∈ Finset.range 20001, 2 * wsRho s (i + 1) * cos ((i + 1 : ℕ) * d)
        ≤ 2 * cos ((i + 1 : ℕ) * d) + 2 * ((i + 1 : ℕ) / 10 ^ 6) := fun i hi => by
      have h := ws_narrow_rho hs ha hg (p := i + 1) (by have := Finset.mem_range.1 hi; omega)
      push_cast at h ⊢
      have c1 := cos_le_one ((i + 1) * d)
      have c2 := neg_one_le_cos ((i + 1) * d)
      nlinarith [h.1, h.2]
    refine (Finset.sum_le_sum h1).trans ?_
    rw [Finset.sum_add_distrib, ← Finset.mul_sum, ← Finset.mul_sum, ← Finset.sum_div]
    have e : ∑ i ∈ Finset.range 20001, ((i + 1 : ℕ) : ℝ) = 200030001 := by
      have := Finset.sum_range_succ' (fun i => (i : ℝ)) 20001
      rw [Nat.cast_zero, add_zero] at this
      rw [← this, ← Nat.cast_sum, Finset.sum_range_id]
      norm_num
    rw [e]
    norm_num
  have hev : ∑ i ∈ Finset.range 20001, cos ((i + 1 : ℕ) * d) = ∑ i ∈ Finset.range 20001, cos ((i + 1 : ℕ) * (3 * π / 40003)) := by
    rcases hd with h | h
    · rw [h]
    · rw [h]
      exact Finset.sum_congr rfl fun i _ => by rw [mul_neg, cos_neg]
  have hD := dirichlet_sum (3 * π / 40003) 20001
  have hsin : sin (((20001 : ℕ) + 1 / 2 : ℝ) * (3 * π / 40003)) = -1 := by
    rw [show (((20001 : ℕ) + 1 / 2 : ℝ) * (3 * π / 40003)) = π / 2 + π by push_cast; ring, sin_add_pi, sin_pi_div_two]
  rw [hsin] at hD
  obtain ⟨s', hsd⟩ : ∃ s, s = sin (3 * π / 40003 / 2) := ⟨_, rfl⟩
  obtain ⟨S, hS⟩ : ∃ S, S = ∑ i ∈ Finset.range 20001, cos ((i + 1 : ℕ) * (3 * π / 40003)) := ⟨_, rfl⟩
  rw [← hsd, ← hS] at hD
  have s0 : 0 < s' := by rw [hsd]; exact sin_pos_of_pos_of_lt_pi (by linarith) (by linarith)
  have s1 : s' ≤ 1 / 8400 := by rw [hsd]; exact (sin_le (by linarith)).trans (by linarith)
  have hS1 : 1 + 2 * S ≤ -8400 := by
    by_contra h
    push Not at h
    nlinarith
  rw [div_lt_iff₀ two_pi_pos]
  rw [hev, ← hS] at hsum
  linarith

end Verif
