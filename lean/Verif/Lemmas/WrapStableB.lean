import Verif.Lemmas.WrapStable
import Verif.Lemmas.KatoJones
import Verif.Spec.Stable

/-!
# Helper lemmas: special cases of the wrapped stable distribution
-/

set_option autoImplicit false

namespace Verif

open Real MeasureTheory Verif.Spec

lemma ws_exp_lt {x : ℝ} (h : x < 0) : exp x < 1 := by rw [← exp_zero]; exact exp_lt_exp.2 h

lemma wsOrder_tail {s : WS} (hs : wsArgcheck s) (h : wsRho s 20000 ≤ 1 / 10 ^ 12) :
    wsOrder s ≤ 20000 ∧ wsRho s (wsOrder s) ≤ 1 / 10 ^ 12 := by
  have h1 : wsOrder s ≤ 20000 := by
    by_contra hc
    have := ((wsOrder_iff hs 20000).1 (by omega)).2
    push_cast at this
    linarith
  refine ⟨h1, ?_⟩
  by_contra hc
  have := (wsOrder_iff hs (wsOrder s)).2 ⟨h1, not_le.1 hc⟩
  omega

/-- Without skewness, or for `α = 2`, the series is symmetric about `δ`. -/
lemma wsMu_sym {s : WS} (h : s.beta = 0 ∨ s.alpha = 2) (p : ℝ) : wsMu s p = s.delta * p := by
  unfold wsMu
  rcases h with h | h
  · simp [h]
  · rw [if_neg (by rw [h]; norm_num), h, show 1 / 2 * π * 2 = π by ring, tan_pi]
    simp

lemma wsPdf_sym {s : WS} (h : s.beta = 0 ∨ s.alpha = 2) (x : ℝ) :
    wsPdf x s = (1 + ∑ i ∈ Finset.range (wsOrder s), 2 * wsRho s (i + 1) * cos ((i + 1 : ℕ) * (x - s.delta))) / (2 * π) := by
  unfold wsPdf
  rw [one_div_mul_eq_div, Finset.mul_sum]
  congr 2
  refine Finset.sum_congr rfl fun i _ => ?_
  rw [wsMu_sym h, show ((i : ℝ) + 1) * x - s.delta * (i + 1) = (i + 1 : ℕ) * (x - s.delta) by push_cast; ring]
  ring

/-! ## Wrapped Cauchy -/

lemma wrappedCauchy_series {r : ℝ} (h0 : 0 ≤ r) (h1 : r < 1) (mu x : ℝ) :
    HasSum (fun n : ℕ => 2 * r ^ (n + 1) * cos ((n + 1 : ℕ) * (x - mu))) (2 * π * wrappedCauchy mu r x - 1) := by
  have h := (kj_hasSum h0 h1 (x - mu) 0).mul_left (2 * r)
  have hd : 0 < 1 + r ^ 2 - 2 * r * cos (x - mu) := by nlinarith [cos_le_one (x - mu)]
  have e : 2 * r * ((cos (x - mu) - r * cos 0) / (1 + r ^ 2 - 2 * r * cos (x - mu - 0)))
      = 2 * π * wrappedCauchy mu r x - 1 := by
    unfold wrappedCauchy
    rw [cos_zero, sub_zero, mul_one]
    generalize hC : cos (x - mu) = C at *
    have := pi_ne_zero
    have hd' := hd.ne'
    field_simp
    ring
  rw [e] at h
  rw [show (fun n : ℕ => 2 * r ^ (n + 1) * cos ((n + 1 : ℕ) * (x - mu)))
      = fun n : ℕ => 2 * r * (r ^ n * cos ((n + 1) * (x - mu) - n * 0)) from funext fun n => ?_]
  · exact h
  push_cast
  rw [mul_zero, sub_zero]
  ring

/-- The tail of a dominated cosine series. -/
lemma ws_tail {a : ℕ → ℝ} {S c q y : ℝ} {P : ℕ} (hS : HasSum (fun n : ℕ => 2 * a n * cos ((n + 1 : ℕ) * y)) S)
    (ha0 : ∀ n, 0 ≤ a n) (hq0 : 0 ≤ q) (hq1 : q < 1) (ha : ∀ n, a (n + P) ≤ c * q ^ (n + 1)) :
    |(1 + ∑ i ∈ Finset.range P, 2 * a i * cos ((i + 1 : ℕ) * y)) / (2 * π) - (1 + S) / (2 * π)|
      ≤ c * (q / (1 - q)) / π := by
  have hsum := hS.summable.sum_add_tsum_nat_add P
  rw [hS.tsum_eq] at hsum
  have hg : HasSum (fun n : ℕ => 2 * (c * q) * q ^ n) (2 * (c * q) * (1 - q)⁻¹) :=
    (hasSum_geometric_of_lt_one hq0 hq1).mul_left _
  have hb := tsum_of_norm_bounded hg (f := fun n => 2 * a (n + P) * cos ((n + P + 1 : ℕ) * y)) fun n => by
    rw [norm_eq_abs, abs_mul, abs_mul, abs_of_pos (two_pos (α := ℝ)), abs_of_nonneg (ha0 _)]
    have h1 := mul_le_of_le_one_right (mul_nonneg (two_pos (α := ℝ)).le (ha0 (n + P))) (abs_cos_le_one ((n + P + 1 : ℕ) * y))
    refine h1.trans ?_
    have := ha n
    rw [pow_succ] at this
    linarith
  rw [norm_eq_abs] at hb
  rw [← sub_div, ← hsum, show ∀ u v : ℝ, 1 + u - (1 + (u + v)) = -v by intro u v; ring, abs_div, abs_neg,
    abs_of_pos two_pi_pos, div_le_div_iff₀ two_pi_pos pi_pos]
  calc _ ≤ 2 * (c * q) * (1 - q)⁻¹ * π := mul_le_mul_of_nonneg_right hb pi_pos.le
    _ = _ := by rw [div_eq_mul_inv]; ring

lemma wsRho_one {s : WS} (ha : s.alpha = 1) (p : ℕ) : wsRho s p = exp (-s.gamma) ^ p := by
  rw [wsRho, ha, rpow_one, ← exp_nat_mul]
  congr 1; ring

lemma wsRho_two {s : WS} (ha : s.alpha = 2) (p : ℕ) : wsRho s p = exp (-s.gamma ^ 2) ^ (p ^ 2) := by
  rw [wsRho, ha, ← exp_nat_mul, rpow_two]
  congr 1; push_cast; ring

lemma exp_ratio_le {g : ℝ} (hg : 0 < g) : exp (-g) / (1 - exp (-g)) ≤ 1 / g := by
  have h1 : exp (-g) < 1 := ws_exp_lt (by linarith)
  rw [div_le_div_iff₀ (by linarith) hg, one_mul]
  have h2 := add_one_le_exp g
  have h3 : exp (-g) * exp g = 1 := by rw [← exp_add]; simp
  nlinarith [exp_pos (-g)]

/-- `α = 1`, `β = 0`: the truncated series of the wrapped Cauchy density. -/
lemma wsPdf_cauchy {s : WS} (hs : wsArgcheck s) (ha : s.alpha = 1) (hb : s.beta = 0) (hg : 14 / 10 ^ 4 ≤ s.gamma) (x : ℝ) :
    |wsPdf x s - wrappedCauchy s.delta (exp (-s.gamma)) x| ≤ 1 / 10 ^ 12 / (π * s.gamma) := by
  have hg0 := hs.2.2.2
  have hL := log_ten_lt
  have h20 : wsRho s 20000 ≤ 1 / 10 ^ 12 := by
    rw [wsRho_le_iff, ha, rpow_one]; norm_num at hg ⊢; linarith
  obtain ⟨-, ht⟩ := wsOrder_tail hs h20
  have hr1 : exp (-s.gamma) < 1 := ws_exp_lt (by linarith)
  have hr0 := exp_pos (-s.gamma)
  have h := ws_tail (P := wsOrder s) (c := 1 / 10 ^ 12) (q := exp (-s.gamma))
    (wrappedCauchy_series hr0.le hr1 s.delta x) (fun n => pow_nonneg hr0.le _) hr0.le hr1 (fun n => by
      rw [wsRho_one ha] at ht
      rw [show n + wsOrder s + 1 = wsOrder s + (n + 1) by ring, pow_add]
      exact mul_le_mul_of_nonneg_right ht (pow_nonneg hr0.le _))
  rw [wsPdf_sym (Or.inl hb)]
  have e : ∀ i : ℕ, wsRho s ((i : ℝ) + 1) = exp (-s.gamma) ^ (i + 1) := fun i => by
    rw [← wsRho_one ha]; push_cast; rfl
  simp only [e]
  have e2 : (1 + (2 * π * wrappedCauchy s.delta (exp (-s.gamma)) x - 1)) / (2 * π) = wrappedCauchy s.delta (exp (-s.gamma)) x := by
    field_simp; ring
  rw [e2] at h
  refine h.trans ?_
  calc _ ≤ 1 / 10 ^ 12 * (1 / s.gamma) / π := by
        refine div_le_div_of_nonneg_right ?_ pi_pos.le
        exact mul_le_mul_of_nonneg_left (exp_ratio_le hg0) (by norm_num)
    _ = _ := by field_simp

lemma wrappedCauchy_ge {r : ℝ} (h0 : 0 ≤ r) (h1 : r < 1) (mu x : ℝ) : (1 - r) / (4 * π) ≤ wrappedCauchy mu r x := by
  unfold wrappedCauchy
  have hd : 0 < 1 + r ^ 2 - 2 * r * cos (x - mu) := by nlinarith [cos_le_one (x - mu)]
  have hd2 : 1 + r ^ 2 - 2 * r * cos (x - mu) ≤ 2 * (1 + r) := by nlinarith [neg_one_le_cos (x - mu)]
  rw [div_le_div_iff₀ (by positivity) (by positivity)]
  have : (1 - r) * (1 + r ^ 2 - 2 * r * cos (x - mu)) ≤ (1 - r) * (2 * (1 + r)) :=
    mul_le_mul_of_nonneg_left hd2 (by linarith)
  nlinarith [pi_pos]

lemma wsPdf_cauchy_pos {s : WS} (hs : wsArgcheck s) (ha : s.alpha = 1) (hb : s.beta = 0) (hg : 14 / 10 ^ 4 ≤ s.gamma) (x : ℝ) :
    0 < wsPdf x s := by
  have hg0 := hs.2.2.2
  have h := (abs_le.1 (wsPdf_cauchy hs ha hb hg x)).1
  have hr1 : exp (-s.gamma) < 1 := ws_exp_lt (by linarith)
  have h2 := wrappedCauchy_ge (exp_pos (-s.gamma)).le hr1 s.delta x
  have h3 : s.gamma / (1 + s.gamma) ≤ 1 - exp (-s.gamma) := by
    have h2 := add_one_le_exp s.gamma
    have h3 : exp (-s.gamma) * exp s.gamma = 1 := by rw [← exp_add]; simp
    rw [div_le_iff₀ (by linarith)]
    nlinarith [exp_pos (-s.gamma)]
  have h4 : 1 / 10 ^ 12 / (π * s.gamma) < s.gamma / (1 + s.gamma) / (4 * π) := by
    rw [div_div, div_div, div_lt_div_iff₀ (by positivity) (by positivity)]
    have : (1 + s.gamma) * 4 < 10 ^ 12 * s.gamma * s.gamma := by
      norm_num at hg ⊢
      nlinarith
    nlinarith [pi_pos]
  have h5 : s.gamma / (1 + s.gamma) / (4 * π) ≤ (1 - exp (-s.gamma)) / (4 * π) :=
    div_le_div_of_nonneg_right h3 (by positivity)
  linarith

/-! ## Wrapped normal -/

lemma ws_normal_tail {s : WS} (hs : wsArgcheck s) (ha : s.alpha = 2) (hg : 3 / 10 ^ 4 ≤ s.gamma) :
    wsOrder s ≤ 20000 ∧ wsRho s (wsOrder s) ≤ 1 / 10 ^ 12 ∧ 5 ≤ s.gamma * wsOrder s := by
  have hg0 := hs.2.2.2
  have hL := log_ten_lt
  have hL' := log_ten_gt
  have h20 : wsRho s 20000 ≤ 1 / 10 ^ 12 := by
    rw [wsRho_le_iff, ha, rpow_two]; norm_num at hg ⊢; nlinarith
  obtain ⟨hP, ht⟩ := wsOrder_tail hs h20
  refine ⟨hP, ht, ?_⟩
  rw [wsRho_le_iff, ha, rpow_two] at ht
  refine abs_le_of_sq_le_sq' ?_ (by positivity) |>.2
  linarith

lemma wsPdf_normal {s : WS} (hs : wsArgcheck s) (ha : s.alpha = 2) (hg : 3 / 10 ^ 4 ≤ s.gamma) (x : ℝ) :
    |wsPdf x s - wrappedNormal s.delta (√2 * s.gamma) x| ≤ 1 / 10 ^ 12 / (π * (10 * s.gamma)) := by
  have hg0 := hs.2.2.2
  obtain ⟨-, ht, h5⟩ := ws_normal_tail hs ha hg
  have hr1 : exp (-s.gamma ^ 2) < 1 := ws_exp_lt (by nlinarith)
  have hr0 := exp_pos (-s.gamma ^ 2)
  have e0 : √(-2 * log (exp (-s.gamma ^ 2))) = √2 * s.gamma := by
    rw [log_exp, show -2 * -s.gamma ^ 2 = 2 * s.gamma ^ 2 by ring, sqrt_mul (by norm_num), sqrt_sq hg0.le]
  have hser := wn_series hr0 hr1 s.delta x
  rw [e0] at hser
  have hS := (wnTerm_summable hr0.le hr1 (x - s.delta)).hasSum
  obtain ⟨S, hSd⟩ : ∃ S, S = ∑' n : ℕ, wnTerm (exp (-s.gamma ^ 2)) (x - s.delta) n := ⟨_, rfl⟩
  rw [← hSd] at hS hser
  have h10 : exp (-(10 * s.gamma)) < 1 := ws_exp_lt (by linarith)
  have hS' : HasSum (fun n : ℕ => 2 * exp (-s.gamma ^ 2) ^ ((n + 1) ^ 2) * cos ((n + 1 : ℕ) * (x - s.delta))) S := by
    rw [show (fun n : ℕ => 2 * exp (-s.gamma ^ 2) ^ ((n + 1) ^ 2) * cos ((n + 1 : ℕ) * (x - s.delta)))
      = wnTerm (exp (-s.gamma ^ 2)) (x - s.delta) from funext fun n => ?_]
    · exact hS
    unfold wnTerm
    ring
  have h := ws_tail (P := wsOrder s) (c := 1 / 10 ^ 12) (q := exp (-(10 * s.gamma))) hS'
    (fun n => pow_nonneg hr0.le _) (exp_pos _).le h10 (fun n => by
      rw [wsRho_two ha] at ht
      obtain ⟨P, hP⟩ : ∃ P, P = wsOrder s := ⟨_, rfl⟩
      rw [← hP] at ht h5 ⊢
      calc exp (-s.gamma ^ 2) ^ ((n + P + 1) ^ 2) ≤ exp (-s.gamma ^ 2) ^ (P ^ 2 + 2 * P * (n + 1)) :=
            pow_le_pow_of_le_one hr0.le hr1.le (by nlinarith)
        _ = exp (-s.gamma ^ 2) ^ (P ^ 2) * (exp (-s.gamma ^ 2) ^ (2 * P)) ^ (n + 1) := by rw [pow_add, pow_mul]
        _ ≤ 1 / 10 ^ 12 * exp (-(10 * s.gamma)) ^ (n + 1) := by
            refine mul_le_mul ht (pow_le_pow_left₀ (by positivity) ?_ _) (by positivity) (by norm_num)
            rw [← exp_nat_mul, exp_le_exp]
            push_cast
            nlinarith)
  rw [wsPdf_sym (Or.inr ha), hser]
  have e : ∀ i : ℕ, wsRho s ((i : ℝ) + 1) = exp (-s.gamma ^ 2) ^ ((i + 1) ^ 2) := fun i => by
    rw [← wsRho_two ha]; push_cast; rfl
  simp only [e]
  refine h.trans ?_
  calc _ ≤ 1 / 10 ^ 12 * (1 / (10 * s.gamma)) / π := by
        refine div_le_div_of_nonneg_right ?_ pi_pos.le
        exact mul_le_mul_of_nonneg_left (exp_ratio_le (by linarith)) (by norm_num)
    _ = _ := by field_simp

end Verif
