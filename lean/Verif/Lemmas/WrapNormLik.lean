import Verif.Lemmas.WrapNormPdf
import Mathlib.Analysis.SpecialFunctions.Log.Deriv

/-! # The windowed series of `wrapnorm.fit` and the sampler -/

set_option autoImplicit false

namespace Verif

open Verif.Spec Real MeasureTheory ProbabilityTheory

/-! ## The sampler -/

lemma ndtr_Icc {a b : ℝ} (h : a ≤ b) : (gaussianReal 0 1).real (Set.Icc a b) = ndtr b - ndtr a := by
  unfold ndtr
  have hd : Set.Iic b \ Set.Iic a = Set.Ioc a b := by ext t; simp [and_comm]
  rw [← measureReal_diff (Set.Iic_subset_Iic.mpr h) measurableSet_Iic, hd, measureReal_def, measureReal_def]
  have : NullMeasurableSet (Set.Icc a b) (gaussianReal 0 1) := measurableSet_Icc.nullMeasurableSet
  have hna : NullSingletonClass (gaussianReal 0 1) := nullSingletonClass_gaussianReal one_ne_zero
  rw [measure_congr Ioc_ae_eq_Icc]

lemma pymod_le_iff {y x : ℝ} (h1 : x < 2 * π) :
    pymod y (2 * π) ≤ x ↔ ∃ k : ℤ, 0 ≤ y + 2 * π * k ∧ y + 2 * π * k ≤ x := by
  constructor
  · intro h
    obtain ⟨k, hk⟩ := pymod_cong y (2 * π)
    have h0 := pymod_nonneg two_pi_pos y
    refine ⟨k, ?_, ?_⟩
    · have : y + 2 * π * k = pymod y (2 * π) := by rw [hk]; ring
      rw [this]; exact h0
    · have : y + 2 * π * k = pymod y (2 * π) := by rw [hk]; ring
      rw [this]; exact h
  · rintro ⟨k, h0, hx⟩
    have : pymod y (2 * π) = y + 2 * π * k := by
      refine (pymod_eq_iff two_pi_pos).2 ⟨h0, by linarith, ?_⟩
      exact ⟨k, by ring⟩
    rw [this]; exact hx

lemma wn_sample {sigma m x : ℝ} (hs : 0 < sigma) (hx0 : 0 ≤ x) (hx1 : x ≤ 2 * π) :
    (gaussianReal 0 1).real {z | pymod (m + sigma * z) (2 * π) ≤ x} = ∫ t in (0 : ℝ)..x, wrappedNormal m sigma t := by
  rcases hx1.eq_or_lt with h | h
  · have : {z | pymod (m + sigma * z) (2 * π) ≤ x} = Set.univ := by
      ext z
      simp only [Set.mem_ofPred_eq, Set.mem_univ, iff_true]
      rw [h]; exact (pymod_lt two_pi_pos _).le
    rw [this, h, wn_mass hs, probReal_univ]
  · have hset : {z | pymod (m + sigma * z) (2 * π) ≤ x}
        = ⋃ k : ℤ, Set.Icc ((-m + 2 * π * k) * (1 / sigma)) ((x - m + 2 * π * k) * (1 / sigma)) := by
      ext z
      simp only [Set.mem_ofPred_eq, Set.mem_iUnion, Set.mem_Icc]
      rw [pymod_le_iff h]
      have key : ∀ k : ℤ, (0 ≤ m + sigma * z + 2 * π * ((-k : ℤ) : ℝ) ∧ m + sigma * z + 2 * π * ((-k : ℤ) : ℝ) ≤ x) ↔
          ((-m + 2 * π * k) * (1 / sigma) ≤ z ∧ z ≤ (x - m + 2 * π * k) * (1 / sigma)) := by
        intro k
        rw [mul_one_div, mul_one_div, div_le_iff₀ hs, le_div_iff₀ hs]
        push_cast
        constructor <;> rintro ⟨a, b⟩ <;> constructor <;> linarith
      constructor
      · rintro ⟨k, hk⟩
        exact ⟨-k, (key (-k)).mp (by rwa [neg_neg])⟩
      · rintro ⟨k, hk⟩
        exact ⟨-k, (key k).mpr hk⟩
    have hle : ∀ k : ℤ, (-m + 2 * π * k) * (1 / sigma) ≤ (x - m + 2 * π * k) * (1 / sigma) := fun k =>
      mul_le_mul_of_nonneg_right (by linarith) (by positivity)
    have hdisj : Pairwise (Function.onFun Disjoint fun k : ℤ =>
        Set.Icc ((-m + 2 * π * k) * (1 / sigma)) ((x - m + 2 * π * k) * (1 / sigma))) := by
      have aux : ∀ i j : ℤ, i < j → Disjoint
          (Set.Icc ((-m + 2 * π * i) * (1 / sigma)) ((x - m + 2 * π * i) * (1 / sigma)))
          (Set.Icc ((-m + 2 * π * j) * (1 / sigma)) ((x - m + 2 * π * j) * (1 / sigma))) := by
        intro i j hij
        rw [Set.disjoint_left]
        rintro z ⟨_, a⟩ ⟨b, _⟩
        have hij' : (i : ℝ) + 1 ≤ j := by exact_mod_cast hij
        rw [mul_one_div, le_div_iff₀ hs] at a
        rw [mul_one_div, div_le_iff₀ hs] at b
        nlinarith [pi_pos]
      intro i j hij
      rcases lt_or_gt_of_ne hij with h | h
      · exact aux i j h
      · exact (aux j i h).symm
    rw [hset, measureReal_def, measure_iUnion hdisj fun k => measurableSet_Icc,
      ENNReal.tsum_toReal_eq fun k => measure_ne_top _ _]
    have e : ∀ k : ℤ, ((gaussianReal 0 1) (Set.Icc ((-m + 2 * π * k) * (1 / sigma)) ((x - m + 2 * π * k) * (1 / sigma)))).toReal
        = wnDelta x m sigma (2 * π * k) := fun k => by
      rw [← measureReal_def, ndtr_Icc (hle k)]
      rfl
    simp only [e]
    exact (wn_hasSum hs m hx0 hx1).tsum_eq

/-! ## The window -/

lemma wnWindow_spec (xs : List ℝ) (mu sigma : ℝ) (K : ℕ) :
    K ≤ wnWindow xs mu sigma K ∧
      (wnTailOk xs mu sigma (wnWindow xs mu sigma K) ∨ 256 ≤ wnWindow xs mu sigma K) := by
  induction K using wnWindow.induct xs mu sigma with
  | case1 K h =>
    rw [wnWindow, if_pos h]
    exact ⟨le_rfl, h⟩
  | case2 K h ih =>
    rw [wnWindow, if_neg h]
    push Not at h
    exact ⟨le_trans (le_min h.2.le (by omega)) ih.1, ih.2⟩

/-- The window sum. -/
noncomputable def wnWinSum (x mu sigma : ℝ) (K : ℕ) : ℝ :=
  ∑ k ∈ Finset.Icc (-(K : ℤ)) K, gk sigma (x - mu + 2 * π * k)

lemma gk_exponent {sigma : ℝ} (hs : 0 < sigma) (x mu : ℝ) (k : ℤ) :
    gk sigma (x - mu + 2 * π * k) = exp (wnExponent x mu sigma k) / (sigma * √(2 * π)) := by
  unfold gk wnExponent
  congr 2
  field_simp

lemma wnSumExp_eq {sigma : ℝ} (hs : 0 < sigma) (x mu : ℝ) (K : ℕ) :
    wnSumExp x mu sigma K * exp (wnMaxExp x mu sigma K) = wnWinSum x mu sigma K * (sigma * √(2 * π)) := by
  have h2 : sigma * √(2 * π) ≠ 0 := by positivity
  unfold wnSumExp wnWinSum
  rw [Finset.sum_mul, Finset.sum_mul]
  refine Finset.sum_congr rfl fun k _ => ?_
  rw [gk_exponent hs, ← exp_add, sub_add_cancel, div_mul_cancel₀ _ h2]

lemma wnSumExp_ge (x mu sigma : ℝ) (K : ℕ) : 1 ≤ wnSumExp x mu sigma K := by
  obtain ⟨k, hk, he⟩ := Finset.exists_mem_eq_sup' (s := Finset.Icc (-(K : ℤ)) K) ⟨0, by simp⟩ (wnExponent x mu sigma)
  unfold wnSumExp
  refine le_trans ?_ (Finset.single_le_sum (fun j _ => (exp_pos _).le) hk)
  have : wnMaxExp x mu sigma K = wnExponent x mu sigma k := he
  rw [this, sub_self, exp_zero]

lemma wnWinSum_pos {sigma : ℝ} (hs : 0 < sigma) (x mu : ℝ) (K : ℕ) : 0 < wnWinSum x mu sigma K :=
  Finset.sum_pos (fun k _ => gk_pos hs _) ⟨0, by simp⟩

lemma wnLogWindow_eq {sigma : ℝ} (hs : 0 < sigma) (x mu : ℝ) (K : ℕ) :
    wnLogWindow x mu sigma K = log (wnWinSum x mu sigma K) := by
  have h1 := wnSumExp_ge x mu sigma K
  have h2 := wnWinSum_pos hs x mu K
  have h3 : 0 < √(2 * π) := sqrt_pos.mpr two_pi_pos
  have h := congrArg log (wnSumExp_eq hs x mu K)
  rw [log_mul (by linarith) (exp_pos _).ne', log_exp, log_mul h2.ne' (by positivity), log_mul hs.ne' h3.ne',
    log_sqrt two_pi_pos.le] at h
  unfold wnLogWindow
  linarith

/-- The edge terms are small compared with the window sum. -/
lemma wn_edge {xs : List ℝ} {x mu sigma : ℝ} {K : ℕ} (hs : 0 < sigma) (hx : x ∈ xs) (h : wnTailOk xs mu sigma K)
    {k : ℤ} (hk : k = K ∨ k = -(K : ℤ)) : gk sigma (x - mu + 2 * π * k) ≤ 1 / 10 ^ 10 * wnWinSum x mu sigma K := by
  have h1 := wnSumExp_ge x mu sigma K
  have hk' : k ∈ [-(K : ℤ), (K : ℤ)] := by rcases hk with h | h <;> simp [h]
  have ht := h x hx k hk'
  have h300 : (1 : ℝ) / 10 ^ 300 ≤ 1 := by
    rw [div_le_one (by positivity)]
    exact one_le_pow₀ (by norm_num)
  rw [max_eq_left (h300.trans h1), div_le_iff₀ (by linarith)] at ht
  rw [gk_exponent hs, div_le_iff₀ (by positivity), mul_assoc, ← wnSumExp_eq hs]
  calc exp (wnExponent x mu sigma k) = exp (wnExponent x mu sigma k - wnMaxExp x mu sigma K) * exp (wnMaxExp x mu sigma K) := by
        rw [← exp_add, sub_add_cancel]
    _ ≤ 1 / 10 ^ 10 * wnSumExp x mu sigma K * exp (wnMaxExp x mu sigma K) := mul_le_mul_of_nonneg_right ht (exp_pos _).le
    _ = _ := by ring

section tail

variable {x mu sigma : ℝ} (hs : 0 < sigma) (hy : |x - mu| ≤ 2 * π)

include hs hy in
lemma gk_pow (k j : ℕ) (hk : 1 ≤ k) :
    gk sigma (x - mu + 2 * π * ((k + j : ℕ) : ℤ)) ≤ wnRatio sigma ^ j * gk sigma (x - mu + 2 * π * (k : ℤ)) := by
  obtain ⟨y0, y1⟩ := abs_le.mp hy
  induction j with
  | zero => simp
  | succ j ih =>
    have e : x - mu + 2 * π * (((k + (j + 1) : ℕ) : ℤ) : ℝ) = (x - mu + 2 * π * (((k + j : ℕ) : ℤ) : ℝ)) + 2 * π := by
      push_cast; ring
    have hk' : (1 : ℝ) ≤ k := by exact_mod_cast hk
    rw [e, pow_succ]
    calc _ ≤ wnRatio sigma * gk sigma (x - mu + 2 * π * (((k + j : ℕ) : ℤ) : ℝ)) := gk_step hs (by
            push_cast
            nlinarith [pi_pos, mul_nonneg pi_pos.le (Nat.cast_nonneg (α := ℝ) j)])
      _ ≤ wnRatio sigma * (wnRatio sigma ^ j * gk sigma (x - mu + 2 * π * (k : ℤ))) :=
          mul_le_mul_of_nonneg_left ih (wnRatio_pos _).le
      _ = _ := by ring

include hs hy in
lemma gk_pow_neg (k j : ℕ) (hk : 1 ≤ k) :
    gk sigma (x - mu + 2 * π * ((-((k + j : ℕ) : ℤ) : ℤ) : ℝ)) ≤ wnRatio sigma ^ j * gk sigma (x - mu + 2 * π * ((-(k : ℤ) : ℤ) : ℝ)) := by
  have h := gk_pow (x := mu) (mu := x) hs (by rwa [abs_sub_comm]) k j hk
  rw [← gk_neg, ← gk_neg sigma (mu - x + 2 * π * ((k : ℤ) : ℝ))] at h
  have e : ∀ n : ℕ, -(mu - x + 2 * π * ((n : ℤ) : ℝ)) = x - mu + 2 * π * ((-(n : ℤ) : ℤ) : ℝ) := fun n => by push_cast; ring
  rwa [e, e] at h

lemma sum_Icc_neg (g : ℤ → ℝ) (K : ℕ) :
    ∑ k ∈ Finset.Icc (-(K : ℤ)) K, g k = ∑ n ∈ Finset.range (K + 1), g n + ∑ n ∈ Finset.range K, g (-((n : ℤ) + 1)) := by
  induction K with
  | zero => simp
  | succ K ih =>
    have e : Finset.Icc (-((K + 1 : ℕ) : ℤ)) ((K + 1 : ℕ) : ℤ)
        = insert (-((K : ℤ) + 1)) (insert ((K + 1 : ℕ) : ℤ) (Finset.Icc (-(K : ℤ)) K)) := by
      ext k
      simp only [Finset.mem_Icc, Finset.mem_insert]
      omega
    rw [e, Finset.sum_insert (by simp only [Finset.mem_Icc, Finset.mem_insert]; omega),
      Finset.sum_insert (by simp only [Finset.mem_Icc]; omega), ih, Finset.sum_range_succ _ (K + 1), Finset.sum_range_succ _ K]
    rw [Finset.sum_range_succ (fun n : ℕ => g (-((n : ℤ) + 1))) K]
    ring

lemma tsum_int_window {g : ℤ → ℝ} (hsum : Summable g) (K : ℕ) :
    ∑' k : ℤ, g k = ∑ k ∈ Finset.Icc (-(K : ℤ)) K, g k
      + (∑' j : ℕ, g ((K + (j + 1) : ℕ) : ℤ) + ∑' j : ℕ, g (-((K + (j + 1) : ℕ) : ℤ))) := by
  have hpos : Summable fun n : ℕ => g (n : ℤ) := hsum.comp_injective Nat.cast_injective
  have hneg : Summable fun n : ℕ => g (-((n : ℤ) + 1)) :=
    hsum.comp_injective (i := fun n : ℕ => -((n : ℤ) + 1)) fun a b h => by simpa using h
  have h3 := (HasSum.of_nat_of_neg_add_one (f := g) hpos.hasSum hneg.hasSum).tsum_eq
  rw [h3, ← hpos.sum_add_tsum_nat_add (K + 1), ← hneg.sum_add_tsum_nat_add K, sum_Icc_neg]
  have e1 : ∀ j : ℕ, g ((j + (K + 1) : ℕ) : ℤ) = g ((K + (j + 1) : ℕ) : ℤ) := fun j => by congr 1; push_cast; ring
  have e2 : ∀ j : ℕ, g (-(((j + K : ℕ) : ℤ) + 1)) = g (-((K + (j + 1) : ℕ) : ℤ)) := fun j => by congr 1; push_cast; ring
  simp only [e1, e2]
  ring

include hs hy in
lemma wn_tail {K : ℕ} (hK : 1 ≤ K) :
    wnWinSum x mu sigma K ≤ wrappedNormal mu sigma x ∧
    wrappedNormal mu sigma x ≤ wnWinSum x mu sigma K
      + (gk sigma (x - mu + 2 * π * (K : ℤ)) + gk sigma (x - mu + 2 * π * ((-(K : ℤ) : ℤ) : ℝ)))
        * (wnRatio sigma / (1 - wnRatio sigma)) := by
  have hq0 := wnRatio_pos sigma
  have hq1 := wnRatio_lt hs
  have hsum := gk_summable hs (x - mu)
  rw [wrappedNormal_def]
  refine ⟨hsum.sum_le_tsum _ fun k _ => (gk_pos hs _).le, ?_⟩
  obtain ⟨g, hg⟩ : ∃ g : ℤ → ℝ, g = fun k : ℤ => gk sigma (x - mu + 2 * π * k) := ⟨_, rfl⟩
  have hgk : ∀ k : ℤ, gk sigma (x - mu + 2 * π * k) = g k := fun k => by rw [hg]
  have hp := gk_pow hs hy K
  have hn := gk_pow_neg hs hy K
  unfold wnWinSum
  simp only [hgk] at hsum hp hn ⊢
  -- split the sum into the window and the two tails
  have hgeo : ∀ c : ℝ, HasSum (fun j : ℕ => wnRatio sigma ^ (j + 1) * c) (c * (wnRatio sigma / (1 - wnRatio sigma))) := by
    intro c
    have := (hasSum_geometric_of_lt_one hq0.le hq1).mul_left (wnRatio sigma * c)
    rw [show wnRatio sigma * c * (1 - wnRatio sigma)⁻¹ = c * (wnRatio sigma / (1 - wnRatio sigma)) by
      rw [div_eq_mul_inv]; ring] at this
    have e : (fun j : ℕ => wnRatio sigma ^ (j + 1) * c) = fun j => wnRatio sigma * c * wnRatio sigma ^ j := by
      funext j; ring
    rw [e]
    exact this
  have hpos : Summable fun j : ℕ => g ((K + (j + 1) : ℕ) : ℤ) :=
    hsum.comp_injective (i := fun j : ℕ => ((K + (j + 1) : ℕ) : ℤ)) fun a b h => by
      simp only [Nat.cast_inj] at h; omega
  have hneg : Summable fun j : ℕ => g (-((K + (j + 1) : ℕ) : ℤ)) :=
    hsum.comp_injective (i := fun j : ℕ => -((K + (j + 1) : ℕ) : ℤ)) fun a b h => by
      simp only [neg_inj, Nat.cast_inj] at h; omega
  have b1 : ∑' j : ℕ, g ((K + (j + 1) : ℕ) : ℤ) ≤ g K * (wnRatio sigma / (1 - wnRatio sigma)) :=
    hasSum_le (fun j => hp (j + 1) hK) hpos.hasSum (hgeo _)
  have b2 : ∑' j : ℕ, g (-((K + (j + 1) : ℕ) : ℤ)) ≤ g (-(K : ℤ)) * (wnRatio sigma / (1 - wnRatio sigma)) :=
    hasSum_le (fun j => hn (j + 1) hK) hneg.hasSum (hgeo _)
  rw [tsum_int_window hsum K]
  linarith

end tail

lemma wnRatio_le {rho : ℝ} (h0 : 1 / 10 ^ 8 < rho) (h1 : rho < 1) : wnRatio √(-2 * log rho) ≤ 61 / 100 := by
  have h0' : 0 < rho := lt_trans (by norm_num) h0
  have hr : (1 / 2 : ℝ) ^ 27 ≤ rho := le_trans (by norm_num) h0.le
  have h2 : log ((1 / 2 : ℝ) ^ 27) ≤ log rho := log_le_log (by positivity) hr
  rw [log_pow, one_div, log_inv] at h2
  have hl := log_two_lt_d9
  push_cast at h2
  have hpi := pi_gt_d2
  unfold wnRatio
  rw [wn_sigma_sq h0' h1]
  have hpos := wn_log_neg h0' h1
  have ha : 526 / 1000 ≤ 2 * π ^ 2 / (-2 * log rho) := by
    rw [le_div_iff₀ hpos]
    nlinarith
  have hb : exp (-(2 * π ^ 2 / (-2 * log rho))) ≤ exp (-(526 / 1000)) := exp_le_exp.mpr (by linarith)
  refine hb.trans ?_
  have h3 := quadratic_le_exp_of_nonneg (show (0 : ℝ) ≤ 526 / 1000 by norm_num)
  rw [exp_neg, inv_le_comm₀ (exp_pos _) (by norm_num)]
  refine le_trans ?_ h3
  norm_num

lemma log_close {a b d : ℝ} (hb : 0 < b) (hd : d ≤ 1 / 11) (h : |a - b| ≤ d * b) : |log a - log b| ≤ 11 / 10 * d := by
  obtain ⟨h1, h2⟩ := abs_le.mp h
  have hd0 : 0 ≤ d := by
    by_contra hc
    push Not at hc
    have := abs_nonneg (a - b)
    nlinarith
  have ha : 0 < a := by nlinarith
  have c1 : log a - log b ≤ d := by
    rw [← log_div ha.ne' hb.ne']
    have := log_le_sub_one_of_pos (div_pos ha hb)
    have e : a / b ≤ 1 + d := by rw [div_le_iff₀ hb]; linarith
    linarith
  have c2 : log b - log a ≤ 11 / 10 * d := by
    rw [← log_div hb.ne' ha.ne']
    have := log_le_sub_one_of_pos (div_pos hb ha)
    have e : b / a ≤ 1 + 11 / 10 * d := by
      rw [div_le_iff₀ ha]
      nlinarith [mul_nonneg hd0 hb.le, mul_nonneg (mul_nonneg hd0 hb.le) (sub_nonneg.mpr hd)]
    linarith
  rw [abs_le]
  constructor <;> linarith

/-- Each term of the objective is the exact log-density up to `2.5e-8`, whatever window the evaluation starts with. -/
lemma wnLogpdf_error {xs : List ℝ} {x mu rho : ℝ} {K : ℕ} (hK : 5 ≤ K) (hx : x ∈ xs) (hy : |x - mu| ≤ 2 * π) (h0 : 0 < rho)
    (h1 : rho ≤ 1 - 1 / 10 ^ 12) :
    |wnLogpdf xs K mu rho x - log (wrappedNormal mu √(-2 * log rho) x)| ≤ 25 / 10 ^ 9 := by
  have h12 : (0 : ℝ) < 1 / 10 ^ 12 := by positivity
  have h1' : rho < 1 := by linarith
  have hs := wn_sigma_pos h0 h1'
  unfold wnLogpdf
  simp only
  by_cases hr : rho ≤ 1 / 10 ^ 8
  · rw [if_pos]
    · have hu := wn_uniform h0 (hr.trans (by norm_num)) mu x
      have := log_close (a := wrappedNormal mu √(-2 * log rho) x) (b := 1 / (2 * π)) (d := 203 / 100 * rho)
        (by positivity) (by norm_num at hr ⊢; linarith) (by rw [mul_one_div]; exact hu)
      rw [one_div, log_inv, abs_sub_comm] at this
      refine this.trans ?_
      norm_num at hr ⊢
      linarith
    · unfold clip
      exact (min_le_left _ _).trans (max_le hr (by norm_num))
  · push Not at hr
    have hcl : clip rho (1 / 10 ^ 12) (1 - 1 / 10 ^ 12) = rho := by
      unfold clip
      rw [max_eq_left (le_trans (by norm_num) hr.le), min_eq_left h1]
    rw [hcl, if_neg (not_le.mpr hr)]
    have hs10 : ¬ 10 < √(-2 * log rho) := by
      push Not
      have hr2 : (1 / 2 : ℝ) ^ 27 ≤ rho := le_trans (by norm_num) hr.le
      have h2 : log ((1 / 2 : ℝ) ^ 27) ≤ log rho := log_le_log (by positivity) hr2
      rw [log_pow, one_div, log_inv] at h2
      have hl := log_two_lt_d9
      push_cast at h2
      refine sqrt_le_iff.mpr ⟨by norm_num, ?_⟩
      linarith
    rw [if_neg hs10, wnLogWindow_eq hs]
    obtain ⟨w1, w2⟩ := wnWindow_spec xs mu √(-2 * log rho) K
    obtain ⟨W, hW⟩ : ∃ W, W = wnWindow xs mu √(-2 * log rho) K := ⟨_, rfl⟩
    rw [← hW] at w1 w2 ⊢
    have hq := wnRatio_le hr h1'
    have hq0 := wnRatio_pos √(-2 * log rho)
    obtain ⟨t1, t2⟩ := wn_tail hs hy (K := W) (by omega)
    have hS := wnWinSum_pos hs x mu W
    obtain ⟨S, hSd⟩ : ∃ S, S = wnWinSum x mu √(-2 * log rho) W := ⟨_, rfl⟩
    have hedge : gk √(-2 * log rho) (x - mu + 2 * π * (W : ℤ)) ≤ 1 / 10 ^ 10 * S ∧
        gk √(-2 * log rho) (x - mu + 2 * π * ((-(W : ℤ) : ℤ) : ℝ)) ≤ 1 / 10 ^ 10 * S := by
      rcases w2 with h | h
      · exact ⟨hSd ▸ wn_edge hs hx h (Or.inl rfl), hSd ▸ wn_edge hs hx h (Or.inr rfl)⟩
      · have hpow : wnRatio √(-2 * log rho) ^ (W - 1) ≤ 1 / 10 ^ 10 :=
          calc wnRatio √(-2 * log rho) ^ (W - 1) ≤ wnRatio √(-2 * log rho) ^ 50 :=
                pow_le_pow_of_le_one hq0.le (by linarith) (by omega)
            _ ≤ (61 / 100) ^ 50 := pow_le_pow_left₀ hq0.le hq 50
            _ ≤ 1 / 10 ^ 10 := by norm_num
        have hin : ∀ k : ℤ, k = 1 ∨ k = -1 → gk √(-2 * log rho) (x - mu + 2 * π * k) ≤ S := fun k hk => by
          rw [hSd]
          exact Finset.single_le_sum (f := fun k : ℤ => gk √(-2 * log rho) (x - mu + 2 * π * k))
            (fun j _ => (gk_pos hs _).le) (by rw [Finset.mem_Icc]; omega)
        have p1 := gk_pow hs hy 1 (W - 1) le_rfl
        have p2 := gk_pow_neg hs hy 1 (W - 1) le_rfl
        rw [show 1 + (W - 1) = W by omega] at p1 p2
        have hqn := pow_nonneg hq0.le (W - 1)
        constructor
        · exact p1.trans (mul_le_mul hpow (by simpa using hin 1 (Or.inl rfl)) (gk_pos hs _).le (by positivity))
        · exact p2.trans (mul_le_mul hpow (by simpa using hin (-1) (Or.inr rfl)) (gk_pos hs _).le (by positivity))
    rw [← hSd] at t1 t2 hS ⊢
    have hrat : wnRatio √(-2 * log rho) / (1 - wnRatio √(-2 * log rho)) ≤ 2 := by
      rw [div_le_iff₀ (by linarith)]
      linarith
    have hrat0 : 0 ≤ wnRatio √(-2 * log rho) / (1 - wnRatio √(-2 * log rho)) := div_nonneg hq0.le (by linarith)
    have hub : wrappedNormal mu √(-2 * log rho) x ≤ S + 4 / 10 ^ 10 * S := by
      refine t2.trans ?_
      have : (gk √(-2 * log rho) (x - mu + 2 * π * (W : ℤ)) + gk √(-2 * log rho) (x - mu + 2 * π * ((-(W : ℤ) : ℤ) : ℝ)))
          * (wnRatio √(-2 * log rho) / (1 - wnRatio √(-2 * log rho))) ≤ (1 / 10 ^ 10 * S + 1 / 10 ^ 10 * S) * 2 :=
        mul_le_mul (add_le_add hedge.1 hedge.2) hrat hrat0 (by positivity)
      calc _ ≤ S + (1 / 10 ^ 10 * S + 1 / 10 ^ 10 * S) * 2 := by gcongr
        _ = _ := by ring
    have hc := log_close (a := wrappedNormal mu √(-2 * log rho) x) (b := S) (d := 4 / 10 ^ 10) hS (by norm_num) (by
      rw [abs_of_nonneg (by linarith)]
      linarith)
    rw [abs_sub_comm]
    exact hc.trans (by norm_num)

end Verif
