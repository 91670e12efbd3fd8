import Verif.Lemmas.BesselDeriv
import Mathlib.Analysis.Calculus.MeanValue

/-!
# Bounds for the piecewise estimate of the concentration

The mean resultant length `A1 = I_1/I_0` satisfies `A1' = 1 - A1/κ - A1²`. Along a curve `κ = K(R)` the difference
`A1(K(R)) - R` can therefore change sign only in one direction, which is decided by the sign of
`K'(1 - R/K - R²) - 1`.
-/

set_option autoImplicit false

namespace Verif

open Real Set

/-- `I_{n+1}/I_n`. -/
noncomputable def bRat (k : ℝ) (n : ℕ) : ℝ := besselI (n + 1) k / besselI n k

theorem bRat_pos {k : ℝ} (hk : 0 < k) (n : ℕ) : 0 < bRat k n :=
  div_pos (besselI_pos _ hk) (besselI_pos _ hk)

theorem cf_step (n : ℕ) {k : ℝ} (hk : 0 < k) {lo hi lo' hi' : ℝ} (hlo : 0 ≤ lo)
    (h1 : lo ≤ bRat k (n + 1)) (h2 : bRat k (n + 1) ≤ hi)
    (e1 : lo' * (2 * (n + 1) / k + hi) ≤ 1) (e2 : 1 ≤ hi' * (2 * (n + 1) / k + lo)) :
    lo' ≤ bRat k n ∧ bRat k n ≤ hi' := by
  have hr := bessel_ratio_rec n hk
  have hp := bRat_pos hk n
  have h0 := besselI_pos n hk
  have h3 := besselI_pos (n + 1) hk
  have hrec : bRat k n * (2 * (n + 1) / k + bRat k (n + 1)) = 1 := by
    have : besselI n k / besselI (n + 1) k = 2 * (n + 1) / k + bRat k (n + 1) := by
      rw [hr]; unfold bRat; ring
    rw [← this]; unfold bRat; field_simp
  have hq : 0 < 2 * ((n : ℝ) + 1) / k := by positivity
  constructor
  · by_contra hc
    push Not at hc
    have hh : 0 < 2 * ((n : ℝ) + 1) / k + hi := by linarith
    have a1 : bRat k n * (2 * (n + 1) / k + bRat k (n + 1)) ≤ bRat k n * (2 * (n + 1) / k + hi) :=
      mul_le_mul_of_nonneg_left (by linarith) hp.le
    have a2 : bRat k n * (2 * (n + 1) / k + hi) < lo' * (2 * (n + 1) / k + hi) :=
      mul_lt_mul_of_pos_right hc hh
    linarith
  · by_contra hc
    push Not at hc
    have a1 : 0 < 2 * ((n : ℝ) + 1) / k + lo := by linarith
    have a2 : hi' * (2 * (n + 1) / k + lo) < bRat k n * (2 * (n + 1) / k + lo) :=
      mul_lt_mul_of_pos_right hc a1
    have a3 : bRat k n * (2 * (n + 1) / k + lo) ≤ bRat k n * (2 * (n + 1) / k + bRat k (n + 1)) :=
      mul_le_mul_of_nonneg_left (by linarith) hp.le
    linarith

theorem A1_at_mid_up : besselI 1 1.2516 / besselI 0 1.2516 ≤ 0.53 := by
  have hk : (0 : ℝ) < 1.2516 := by norm_num
  have h4 : (0 : ℝ) ≤ bRat 1.2516 4 ∧ bRat 1.2516 4 ≤ 0.12516 :=
    ⟨(bRat_pos hk _).le, (bessel_ratio_le 4 hk).trans (by norm_num)⟩
  have h3 : ((0.153445 : ℝ)) ≤ bRat 1.2516 3 ∧ bRat 1.2516 3 ≤ 0.15645 :=
    cf_step 3 hk (by norm_num) h4.1 h4.2 (by norm_num) (by norm_num)
  have h2 : ((0.202007 : ℝ)) ≤ bRat 1.2516 2 ∧ bRat 1.2516 2 ≤ 0.202131 :=
    cf_step 2 hk (by norm_num) h3.1 h3.2 (by norm_num) (by norm_num)
  have h1 : ((0.294287 : ℝ)) ≤ bRat 1.2516 1 ∧ bRat 1.2516 1 ≤ 0.294299 :=
    cf_step 1 hk (by norm_num) h2.1 h2.2 (by norm_num) (by norm_num)
  have h0 : ((0.52847 : ℝ)) ≤ bRat 1.2516 0 ∧ bRat 1.2516 0 ≤ 0.528474 :=
    cf_step 0 hk (by norm_num) h1.1 h1.2 (by norm_num) (by norm_num)
  have := h0.2
  unfold bRat at this
  norm_num at this ⊢
  linarith

theorem A1_at_mid_down : 0.53 ≤ besselI 1 1.259 / besselI 0 1.259 := by
  have hk : (0 : ℝ) < 1.259 := by norm_num
  have h4 : (0 : ℝ) ≤ bRat 1.259 4 ∧ bRat 1.259 4 ≤ 0.1259 :=
    ⟨(bRat_pos hk _).le, (bessel_ratio_le 4 hk).trans (by norm_num)⟩
  have h3 : ((0.154317 : ℝ)) ≤ bRat 1.259 3 ∧ bRat 1.259 3 ≤ 0.157375 :=
    cf_step 3 hk (by norm_num) h4.1 h4.2 (by norm_num) (by norm_num)
  have h2 : ((0.203125 : ℝ)) ≤ bRat 1.259 2 ∧ bRat 1.259 2 ≤ 0.203252 :=
    cf_step 2 hk (by norm_num) h3.1 h3.2 (by norm_num) (by norm_num)
  have h1 : ((0.295825 : ℝ)) ≤ bRat 1.259 1 ∧ bRat 1.259 1 ≤ 0.295837 :=
    cf_step 1 hk (by norm_num) h2.1 h2.2 (by norm_num) (by norm_num)
  have h0 : ((0.530673 : ℝ)) ≤ bRat 1.259 0 ∧ bRat 1.259 0 ≤ 0.530677 :=
    cf_step 0 hk (by norm_num) h1.1 h1.2 (by norm_num) (by norm_num)
  have := h0.1
  unfold bRat at this
  norm_num at this ⊢
  linarith

theorem A1_at_high_up : besselI 1 3.648 / besselI 0 3.648 ≤ 0.85 := by
  have hk : (0 : ℝ) < 3.648 := by norm_num
  have h7 : (0 : ℝ) ≤ bRat 3.648 7 ∧ bRat 3.648 7 ≤ 0.228 :=
    ⟨(bRat_pos hk _).le, (bessel_ratio_le 7 hk).trans (by norm_num)⟩
  have h6 : ((0.245958 : ℝ)) ≤ bRat 3.648 6 ∧ bRat 3.648 6 ≤ 0.260572 :=
    cf_step 6 hk (by norm_num) h7.1 h7.2 (by norm_num) (by norm_num)
  have h5 : ((0.281686 : ℝ)) ≤ bRat 3.648 5 ∧ bRat 3.648 5 ≤ 0.282851 :=
    cf_step 5 hk (by norm_num) h6.1 h6.2 (by norm_num) (by norm_num)
  have h4 : ((0.330679 : ℝ)) ≤ bRat 3.648 4 ∧ bRat 3.648 4 ≤ 0.330807 :=
    cf_step 4 hk (by norm_num) h5.1 h5.2 (by norm_num) (by norm_num)
  have h3 : ((0.396229 : ℝ)) ≤ bRat 3.648 3 ∧ bRat 3.648 3 ≤ 0.39625 :=
    cf_step 3 hk (by norm_num) h4.1 h4.2 (by norm_num) (by norm_num)
  have h2 : ((0.489959 : ℝ)) ≤ bRat 3.648 2 ∧ bRat 3.648 2 ≤ 0.489965 :=
    cf_step 2 hk (by norm_num) h3.1 h3.2 (by norm_num) (by norm_num)
  have h1 : ((0.630335 : ℝ)) ≤ bRat 3.648 1 ∧ bRat 3.648 1 ≤ 0.630339 :=
    cf_step 1 hk (by norm_num) h2.1 h2.2 (by norm_num) (by norm_num)
  have h0 : ((0.848475 : ℝ)) ≤ bRat 3.648 0 ∧ bRat 3.648 0 ≤ 0.848479 :=
    cf_step 0 hk (by norm_num) h1.1 h1.2 (by norm_num) (by norm_num)
  have := h0.2
  unfold bRat at this
  norm_num at this ⊢
  linarith

theorem A1_at_high_down : 0.85 ≤ besselI 1 3.688 / besselI 0 3.688 := by
  have hk : (0 : ℝ) < 3.688 := by norm_num
  have h7 : (0 : ℝ) ≤ bRat 3.688 7 ∧ bRat 3.688 7 ≤ 0.2305 :=
    ⟨(bRat_pos hk _).le, (bessel_ratio_le 7 hk).trans (by norm_num)⟩
  have h6 : ((0.248348 : ℝ)) ≤ bRat 3.688 6 ∧ bRat 3.688 6 ≤ 0.263429 :=
    cf_step 6 hk (by norm_num) h7.1 h7.2 (by norm_num) (by norm_num)
  have h5 : ((0.284315 : ℝ)) ≤ bRat 3.688 5 ∧ bRat 3.688 5 ≤ 0.28554 :=
    cf_step 5 hk (by norm_num) h6.1 h6.2 (by norm_num) (by norm_num)
  have h4 : ((0.333662 : ℝ)) ≤ bRat 3.688 4 ∧ bRat 3.688 4 ≤ 0.3338 :=
    cf_step 4 hk (by norm_num) h5.1 h5.2 (by norm_num) (by norm_num)
  have h3 : ((0.39952 : ℝ)) ≤ bRat 3.688 3 ∧ bRat 3.688 3 ≤ 0.399544 :=
    cf_step 3 hk (by norm_num) h4.1 h4.2 (by norm_num) (by norm_num)
  have h2 : ((0.493475 : ℝ)) ≤ bRat 3.688 2 ∧ bRat 3.688 2 ≤ 0.493482 :=
    cf_step 2 hk (by norm_num) h3.1 h3.2 (by norm_num) (by norm_num)
  have h1 : ((0.633681 : ℝ)) ≤ bRat 3.688 1 ∧ bRat 3.688 1 ≤ 0.633684 :=
    cf_step 1 hk (by norm_num) h2.1 h2.2 (by norm_num) (by norm_num)
  have h0 : ((0.850352 : ℝ)) ≤ bRat 3.688 0 ∧ bRat 3.688 0 ≤ 0.850355 :=
    cf_step 0 hk (by norm_num) h1.1 h1.2 (by norm_num) (by norm_num)
  have := h0.1
  unfold bRat at this
  norm_num at this ⊢
  linarith

theorem A1_strictMonoOn : StrictMonoOn (fun k => besselI 1 k / besselI 0 k) (Ioi 0) := by
  apply strictMonoOn_of_deriv_pos (convex_Ioi 0)
  · exact fun k hk => (hasDerivAt_bessel_ratio (ne_of_gt hk)).continuousAt.continuousWithinAt
  · intro k hk
    rw [interior_Ioi] at hk
    rw [(hasDerivAt_bessel_ratio (ne_of_gt hk)).deriv]
    exact bessel_ratio_deriv_pos (ne_of_gt hk)

theorem A1_pos {k : ℝ} (hk : 0 < k) : 0 < besselI 1 k / besselI 0 k := bRat_pos hk 0

theorem A1_le_half {k : ℝ} (hk : 0 < k) : besselI 1 k / besselI 0 k ≤ k / 2 := by
  have := bessel_ratio_le 0 hk
  norm_num at this
  exact this

/-- Comparison from above. -/
theorem A1_curve_le {a b η : ℝ} {K K' : ℝ → ℝ} (ha : 0 ≤ a) (hab : a ≤ b) (hη : 0 ≤ η)
    (hK : ∀ x ∈ Icc a b, 0 < K x) (hd : ∀ x ∈ Icc a b, HasDerivAt K (K' x) x)
    (hK' : ∀ x ∈ Ico a b, 0 ≤ K' x)
    (h0 : besselI 1 (K a) / besselI 0 (K a) ≤ a + η)
    (hN : ∀ x ∈ Ico a b, K' x * (1 - x / K x - x ^ 2) < 1) :
    besselI 1 (K b) / besselI 0 (K b) ≤ b + η := by
  have hder : ∀ x ∈ Icc a b, HasDerivAt (fun x => besselI 1 (K x) / besselI 0 (K x))
      ((1 - besselI 1 (K x) / besselI 0 (K x) / K x - (besselI 1 (K x) / besselI 0 (K x)) ^ 2) * K' x) x :=
    fun x hx => (hasDerivAt_bessel_ratio (hK x hx).ne').comp x (hd x hx)
  refine image_le_of_deriv_right_lt_deriv_boundary
    (f := fun x => besselI 1 (K x) / besselI 0 (K x)) (B := fun x => x + η) (B' := fun _ => 1)
    (fun x hx => (hder x hx).continuousAt.continuousWithinAt)
    (fun x hx => (hder x (Ico_subset_Icc_self hx)).hasDerivWithinAt) h0
    (fun x => (hasDerivAt_id x).add_const η) ?_ (right_mem_Icc.2 hab)
  intro x hx he
  have hk := hK x (Ico_subset_Icc_self hx)
  have hx0 : 0 ≤ x := ha.trans hx.1
  rw [he]
  refine lt_of_le_of_lt ?_ (hN x hx)
  rw [mul_comm]
  apply mul_le_mul_of_nonneg_left _ (hK' x hx)
  have e1 : x / K x ≤ (x + η) / K x := by gcongr; linarith
  have e2 : x ^ 2 ≤ (x + η) ^ 2 := by gcongr; linarith
  linarith

/-- Comparison from below. -/
theorem le_A1_curve {a b η : ℝ} {K K' : ℝ → ℝ} (hab : a ≤ b) (hη : 0 ≤ η)
    (hK : ∀ x ∈ Icc a b, 0 < K x) (hd : ∀ x ∈ Icc a b, HasDerivAt K (K' x) x)
    (hK' : ∀ x ∈ Ico a b, 0 ≤ K' x)
    (h0 : a - η ≤ besselI 1 (K a) / besselI 0 (K a))
    (hN : ∀ x ∈ Ico a b, 1 < K' x * (1 - x / K x - x ^ 2)) :
    b - η ≤ besselI 1 (K b) / besselI 0 (K b) := by
  have hder : ∀ x ∈ Icc a b, HasDerivAt (fun x => besselI 1 (K x) / besselI 0 (K x))
      ((1 - besselI 1 (K x) / besselI 0 (K x) / K x - (besselI 1 (K x) / besselI 0 (K x)) ^ 2) * K' x) x :=
    fun x hx => (hasDerivAt_bessel_ratio (hK x hx).ne').comp x (hd x hx)
  have := image_le_of_deriv_right_lt_deriv_boundary
    (f := fun x => -(besselI 1 (K x) / besselI 0 (K x))) (B := fun x => -(x - η)) (B' := fun _ => -1)
    (f' := fun x => -((1 - besselI 1 (K x) / besselI 0 (K x) / K x
      - (besselI 1 (K x) / besselI 0 (K x)) ^ 2) * K' x))
    (a := a) (b := b)
    (fun x hx => (hder x hx).neg.continuousAt.continuousWithinAt)
    (fun x hx => (hder x (Ico_subset_Icc_self hx)).neg.hasDerivWithinAt) (neg_le_neg h0)
    (fun x => ((hasDerivAt_id x).sub_const η).neg) ?_ (right_mem_Icc.2 hab)
  · exact neg_le_neg_iff.1 this
  intro x hx he
  simp only [neg_inj] at he
  have hk := hK x (Ico_subset_Icc_self hx)
  have hpos := A1_pos hk
  rw [he] at hpos ⊢
  apply neg_lt_neg
  refine lt_of_lt_of_le (hN x hx) ?_
  rw [mul_comm]
  apply mul_le_mul_of_nonneg_right _ (hK' x hx)
  have e1 : (x - η) / K x ≤ x / K x := by gcongr; linarith
  have e2 : (x - η) ^ 2 ≤ x ^ 2 := by
    apply pow_le_pow_left₀ hpos.le; linarith
  linarith

/-! ## The first piece, `R < 0.53` -/

theorem kappa_low_up {R : ℝ} (h0 : 0 < R) (h1 : R ≤ 0.53) :
    besselI 1 (2 * R + R ^ 3 + 5 * R ^ 5 / 6) / besselI 0 (2 * R + R ^ 3 + 5 * R ^ 5 / 6) ≤ R := by
  apply le_of_forall_pos_le_add
  intro η hη
  have hm : 0 < min R η := lt_min h0 hη
  refine A1_curve_le (a := min R η) (K := fun x => 2 * x + x ^ 3 + 5 * x ^ 5 / 6)
    (K' := fun x => 2 + 3 * x ^ 2 + 25 * x ^ 4 / 6) hm.le (min_le_left _ _) hη.le ?_ ?_ ?_ ?_ ?_
  · intro x hx
    have : 0 < x := lt_of_lt_of_le hm hx.1
    positivity
  · intro x _
    refine ((((hasDerivAt_id x).const_mul 2).add (hasDerivAt_pow 3 x)).add
      (((hasDerivAt_pow 5 x).const_mul 5).div_const 6)).congr_deriv ?_
    norm_num; ring
  · intro x _; positivity
  · have hle : min R η ≤ η := min_le_right _ _
    have hle' : min R η ≤ 0.53 := (min_le_left _ _).trans h1
    generalize min R η = e at *
    refine (A1_le_half (by positivity)).trans ?_
    have e2 : e ^ 2 ≤ 1 := pow_le_one₀ hm.le (by norm_num at hle' ⊢; linarith)
    have e3 : e ^ 3 ≤ e := by nlinarith
    have e5 : e ^ 5 ≤ e := by
      have : e ^ 5 = e ^ 3 * e ^ 2 := by ring
      nlinarith [pow_pos hm 3]
    linarith
  · intro x hx
    have hx0 : 0 < x := lt_of_lt_of_le hm hx.1
    have hk : 0 < 2 + x ^ 2 + 5 * x ^ 4 / 6 := by positivity
    have e : (2 + 3 * x ^ 2 + 25 * x ^ 4 / 6) * (1 - x / (2 * x + x ^ 3 + 5 * x ^ 5 / 6) - x ^ 2)
        = (2 + 3 * x ^ 2 + 25 * x ^ 4 / 6) * (2 + x ^ 2 + 5 * x ^ 4 / 6 - 1
          - x ^ 2 * (2 + x ^ 2 + 5 * x ^ 4 / 6)) / (2 + x ^ 2 + 5 * x ^ 4 / 6) := by
      have : 2 * x + x ^ 3 + 5 * x ^ 5 / 6 = x * (2 + x ^ 2 + 5 * x ^ 4 / 6) := by ring
      rw [this]
      field_simp
    rw [e, div_lt_one hk]
    have : 0 < 19 / 3 * x ^ 6 + 115 / 36 * x ^ 8 + 125 / 36 * x ^ 10 := by positivity
    linarith

theorem kappa_low_down {R : ℝ} (h0 : 0 < R) (h1 : R ≤ 0.53) :
    R ≤ besselI 1 ((1 + 0.495 * R ^ 6) * (2 * R + R ^ 3 + 5 * R ^ 5 / 6))
      / besselI 0 ((1 + 0.495 * R ^ 6) * (2 * R + R ^ 3 + 5 * R ^ 5 / 6)) := by
  apply le_of_forall_pos_le_add
  intro η hη
  have hm : 0 < min R η := lt_min h0 hη
  rw [← sub_le_iff_le_add]
  refine le_A1_curve (a := min R η) (K := fun x => (1 + 0.495 * x ^ 6) * (2 * x + x ^ 3 + 5 * x ^ 5 / 6))
    (K' := fun x => 0.495 * (6 * x ^ 5) * (2 * x + x ^ 3 + 5 * x ^ 5 / 6)
      + (1 + 0.495 * x ^ 6) * (2 + 3 * x ^ 2 + 25 * x ^ 4 / 6)) (min_le_left _ _) hη.le ?_ ?_ ?_ ?_ ?_
  · intro x hx
    have : 0 < x := lt_of_lt_of_le hm hx.1
    positivity
  · intro x _
    have d1 : HasDerivAt (fun x : ℝ => 2 * x + x ^ 3 + 5 * x ^ 5 / 6) (2 + 3 * x ^ 2 + 25 * x ^ 4 / 6) x := by
      refine ((((hasDerivAt_id x).const_mul 2).add (hasDerivAt_pow 3 x)).add
        (((hasDerivAt_pow 5 x).const_mul 5).div_const 6)).congr_deriv ?_
      norm_num; ring
    have d2 : HasDerivAt (fun x : ℝ => 1 + 0.495 * x ^ 6) (0.495 * (6 * x ^ 5)) x := by
      refine (((hasDerivAt_pow 6 x).const_mul 0.495).const_add 1).congr_deriv ?_
      norm_num
    exact d2.mul d1
  · intro x hx
    have : 0 < x := lt_of_lt_of_le hm hx.1
    positivity
  · have hle : min R η ≤ η := min_le_right _ _
    have hp : 0 < (1 + 0.495 * (min R η) ^ 6) * (2 * (min R η) + (min R η) ^ 3 + 5 * (min R η) ^ 5 / 6) := by
      positivity
    have := A1_pos hp
    linarith
  · intro x hx
    have hx0 : 0 < x := lt_of_lt_of_le hm hx.1
    have hx1 : x ≤ 0.53 := hx.2.le.trans h1
    have hu0 : 0 < x ^ 2 := by positivity
    have hu1 : x ^ 2 ≤ 0.2809 := by norm_num at hx1 ⊢; nlinarith
    obtain ⟨u, hu⟩ : ∃ u, u = x ^ 2 := ⟨_, rfl⟩
    rw [← hu] at hu0 hu1
    have hk : 0 < (1 + 0.495 * u ^ 3) * (2 + u + 5 * u ^ 2 / 6) := by positivity
    have e : (0.495 * (6 * x ^ 5) * (2 * x + x ^ 3 + 5 * x ^ 5 / 6)
        + (1 + 0.495 * x ^ 6) * (2 + 3 * x ^ 2 + 25 * x ^ 4 / 6))
        * (1 - x / ((1 + 0.495 * x ^ 6) * (2 * x + x ^ 3 + 5 * x ^ 5 / 6)) - x ^ 2)
        = (0.495 * (6 * u ^ 3) * (2 + u + 5 * u ^ 2 / 6) + (1 + 0.495 * u ^ 3) * (2 + 3 * u + 25 * u ^ 2 / 6))
          * ((1 + 0.495 * u ^ 3) * (2 + u + 5 * u ^ 2 / 6) - 1
            - u * ((1 + 0.495 * u ^ 3) * (2 + u + 5 * u ^ 2 / 6)))
          / ((1 + 0.495 * u ^ 3) * (2 + u + 5 * u ^ 2 / 6)) := by
      have e1 : (1 + 0.495 * x ^ 6) * (2 * x + x ^ 3 + 5 * x ^ 5 / 6)
          = x * ((1 + 0.495 * u ^ 3) * (2 + u + 5 * u ^ 2 / 6)) := by rw [hu]; ring
      have e2 : 0.495 * (6 * x ^ 5) * (2 * x + x ^ 3 + 5 * x ^ 5 / 6)
          = 0.495 * (6 * u ^ 3) * (2 + u + 5 * u ^ 2 / 6) := by rw [hu]; ring
      have e3 : 2 + 3 * x ^ 2 + 25 * x ^ 4 / 6 = 2 + 3 * u + 25 * u ^ 2 / 6 := by rw [hu]; ring
      have e4 : 1 + 0.495 * x ^ 6 = 1 + 0.495 * u ^ 3 := by rw [hu]; ring
      rw [e1, e2, e3, e4, ← hu]
      generalize (1 + 0.495 * u ^ 3) * (2 + u + 5 * u ^ 2 / 6) = l at hk
      field_simp
    rw [e, one_lt_div hk]
    have h1 : 0 ≤ u := hu0.le
    have h2 : 0 ≤ 0.2809 - u := by linarith
    have key : 0 < u ^ 3 * ((119 / 75) * u ^ 0 + (-1883 / 450) * u ^ 1 + (-1117 / 450) * u ^ 2 + (-73293 / 10000) * u ^ 3 + (-50699 / 10000) * u ^ 4 + (-151393 / 40000) * u ^ 5 + (-218889 / 40000) * u ^ 6 + (-14157 / 6400) * u ^ 7 + (-11979 / 6400) * u ^ 8) := by
      apply mul_pos (by positivity)
      have hb : (119 / 75) * u ^ 0 + (-1883 / 450) * u ^ 1 + (-1117 / 450) * u ^ 2 + (-73293 / 10000) * u ^ 3 + (-50699 / 10000) * u ^ 4 + (-151393 / 40000) * u ^ 5 + (-218889 / 40000) * u ^ 6 + (-14157 / 6400) * u ^ 7 + (-11979 / 6400) * u ^ 8
          = (476000000000000000000000000000000 / 11628807150355550536193616963) * (u ^ 0 * (0.2809 - u) ^ 8) + (10366130600000000000000000000000000 / 34886421451066651608580850889) * (u ^ 1 * (0.2809 - u) ^ 7) + (10800880284820000000000000000000000 / 11628807150355550536193616963) * (u ^ 2 * (0.2809 - u) ^ 6) + (18849632733313166090000000000000000 / 11628807150355550536193616963) * (u ^ 3 * (0.2809 - u) ^ 5) + (59531040646400001027949000000000000 / 34886421451066651608580850889) * (u ^ 4 * (0.2809 - u) ^ 4) + (12611823136391595345154955725000000 / 11628807150355550536193616963) * (u ^ 5 * (0.2809 - u) ^ 3) + (1496872964476413666860797690377500 / 3876269050118516845397872321) * (u ^ 6 * (0.2809 - u) ^ 2) + (33498126754090423370858074480820075 / 558182743217066425737293614224) * (u ^ 7 * (0.2809 - u) ^ 1) + (7486330686621420649245950730136741 / 24808121920758507810546382854400) * (u ^ 8 * (0.2809 - u) ^ 0) := by ring
      rw [hb]
      have hs : 0 < u + (0.2809 - u) := by norm_num
      have hv : ∀ i j : ℕ, 0 ≤ u ^ i * (0.2809 - u) ^ j := fun i j => mul_nonneg (pow_nonneg h1 i) (pow_nonneg h2 j)
      have hlast : 0 < u ^ 8 * (0.2809 - u) ^ 0 := by positivity
      linarith [hv 0 8, hv 1 7, hv 2 6, hv 3 5, hv 4 4, hv 5 3, hv 6 2, hv 7 1]
    linarith

/-! ## The second piece, `0.53 ≤ R < 0.85` -/

/-- The slope condition for a curve `Q/(1-R)` with slope `P/(1-R)²`, in terms of `d = 1 - R`. -/
theorem slope_eq {P Q d x : ℝ} (hd : 0 < d) (hQ : 0 < Q) (hx : x = 1 - d) :
    P / d ^ 2 * (1 - x / (Q / d) - x ^ 2) = P * (Q * (2 - d) - (1 - d)) / (d * Q) := by
  rw [hx]
  field_simp
  ring

theorem mid_eq {x : ℝ} (hx : x < 1) :
    (-0.4 + 1.39 * x + 0.43 / (1 - x) = (0.43 + 0.99 * (1 - x) - 1.39 * (1 - x) ^ 2) / (1 - x)) ∧
    (1.39 + 0.43 / (1 - x) ^ 2 = (0.43 + 1.39 * (1 - x) ^ 2) / (1 - x) ^ 2) := by
  have : 1 - x ≠ 0 := by intro h; linarith
  constructor
  · rw [eq_div_iff this, add_mul, div_mul_cancel₀ _ this]; ring
  · rw [eq_div_iff (pow_ne_zero 2 this), add_mul, div_mul_cancel₀ _ (pow_ne_zero 2 this)]; ring

theorem mid_deriv {x : ℝ} (hx : x < 1) :
    HasDerivAt (fun x : ℝ => -0.4 + 1.39 * x + 0.43 / (1 - x)) (1.39 + 0.43 / (1 - x) ^ 2) x := by
  have hne : 1 - x ≠ 0 := by intro h; linarith
  have d1 : HasDerivAt (fun x : ℝ => 1 - x) (-1) x := by
    simpa using (hasDerivAt_id x).const_sub 1
  have d2 : HasDerivAt (fun x : ℝ => 0.43 / (1 - x)) (0.43 / (1 - x) ^ 2) x := by
    refine ((hasDerivAt_const x (0.43 : ℝ)).div d1 hne).congr_deriv ?_
    norm_num
  refine ((((hasDerivAt_id x).const_mul 1.39).const_add (-0.4)).add d2).congr_deriv ?_
  norm_num

theorem mid_pos {x : ℝ} (h0 : 0.53 ≤ x) (hx : x < 1) : 1.25 < -0.4 + 1.39 * x + 0.43 / (1 - x) := by
  have h1 : 0.43 / (1 - 0.53) ≤ 0.43 / (1 - x) := by
    apply div_le_div_of_nonneg_left <;> norm_num at h0 ⊢ <;> linarith
  norm_num at h0 h1 ⊢
  linarith

theorem mid_q_pos {d : ℝ} (h0 : 0 < d) (h1 : d ≤ 0.47) : 0 < 0.43 + 0.99 * d - 1.39 * d ^ 2 := by
  norm_num at h1 ⊢
  nlinarith

theorem kappa_mid_up {R : ℝ} (h0 : 0.53 ≤ R) (h1 : R ≤ 0.85) :
    besselI 1 (-0.4 + 1.39 * R + 0.43 / (1 - R)) / besselI 0 (-0.4 + 1.39 * R + 0.43 / (1 - R)) ≤ R := by
  have hlt : ∀ x : ℝ, x ≤ R → x < 1 := fun x hx => by norm_num at h1 ⊢; linarith
  have := A1_curve_le (a := 0.53) (b := R) (η := 0) (K := fun x => -0.4 + 1.39 * x + 0.43 / (1 - x))
    (K' := fun x => 1.39 + 0.43 / (1 - x) ^ 2) (by norm_num) h0 le_rfl
    (fun x hx => lt_trans (by norm_num) (mid_pos hx.1 (hlt x hx.2)))
    (fun x hx => mid_deriv (hlt x hx.2)) (fun x _ => by positivity) ?_ ?_
  · simpa using this
  · have hm := A1_strictMonoOn.monotoneOn (a := -0.4 + 1.39 * 0.53 + 0.43 / (1 - 0.53)) (b := 1.2516)
      (by norm_num) (by norm_num) (by norm_num)
    have := A1_at_mid_up
    simp only [add_zero]
    exact hm.trans this
  · intro x hx
    have hx1 := hlt x hx.2.le
    rw [(mid_eq hx1).1, (mid_eq hx1).2]
    obtain ⟨d, hd⟩ : ∃ d, d = 1 - x := ⟨_, rfl⟩
    rw [← hd]
    have hd0 : 0.15 ≤ d := by rw [hd]; norm_num at h1 ⊢; linarith [hx.2]
    have hd1 : d ≤ 0.47 := by rw [hd]; have := hx.1; norm_num at this ⊢; linarith
    have hdp : 0 < d := lt_of_lt_of_le (by norm_num) hd0
    have hq := mid_q_pos hdp hd1
    rw [slope_eq hdp hq (by rw [hd]; ring), div_lt_one (by positivity)]
    have key : 0 < (301 / 5000) * d ^ 0 + (-1333 / 2000) * d ^ 1 + (28057 / 10000) * d ^ 2 + (-27661 / 5000) * d ^ 3 + (52403 / 10000) * d ^ 4 + (-19321 / 10000) * d ^ 5 := by
      norm_num at hd0 hd1
      rcases le_total d (29 / 100) with hm | hm
      · have hb : (301 / 5000) * d ^ 0 + (-1333 / 2000) * d ^ 1 + (28057 / 10000) * d ^ 2 + (-27661 / 5000) * d ^ 3 + (52403 / 10000) * d ^ 4 + (-19321 / 10000) * d ^ 5
            = (16565078049 / 40000000000000) + ((270965243201 / 2151296000) * ((d - (3 / 20)) ^ 0 * ((29 / 100) - d) ^ 5) + (122721955701 / 430259200) * ((d - (3 / 20)) ^ 1 * ((29 / 100) - d) ^ 4) + (49620530801 / 215129600) * ((d - (3 / 20)) ^ 2 * ((29 / 100) - d) ^ 3) + (20678546821 / 215129600) * ((d - (3 / 20)) ^ 3 * ((29 / 100) - d) ^ 2) + (16565078049 / 430259200) * ((d - (3 / 20)) ^ 4 * ((29 / 100) - d) ^ 1) + (127220878697 / 10756480000) * ((d - (3 / 20)) ^ 5 * ((29 / 100) - d) ^ 0)) := by ring
        rw [hb]
        have g1 : 0 ≤ d - (3 / 20) := by linarith
        have g2 : 0 ≤ (29 / 100) - d := by linarith
        positivity
      · have hb : (301 / 5000) * d ^ 0 + (-1333 / 2000) * d ^ 1 + (28057 / 10000) * d ^ 2 + (-27661 / 5000) * d ^ 3 + (52403 / 10000) * d ^ 4 + (-19321 / 10000) * d ^ 5
            = (105023134471 / 200000000000000) + ((105023134471 / 37791360000) * ((d - (29 / 100)) ^ 0 * ((47 / 100) - d) ^ 5) + (32420609639 / 1511654400) * ((d - (29 / 100)) ^ 1 * ((47 / 100) - d) ^ 4) + (326570501047 / 3779136000) * ((d - (29 / 100)) ^ 2 * ((47 / 100) - d) ^ 3) + (472646970643 / 3779136000) * ((d - (29 / 100)) ^ 3 * ((47 / 100) - d) ^ 2) + (576958232551 / 7558272000) * ((d - (29 / 100)) ^ 4 * ((47 / 100) - d) ^ 1) + (129103534727 / 7558272000) * ((d - (29 / 100)) ^ 5 * ((47 / 100) - d) ^ 0)) := by ring
        rw [hb]
        have g1 : 0 ≤ d - (29 / 100) := by linarith
        have g2 : 0 ≤ (47 / 100) - d := by linarith
        positivity
    linarith

theorem kappa_mid_down_a {R : ℝ} (h0 : 0.53 ≤ R) (h1 : R ≤ 0.8) :
    R ≤ besselI 1 (1.006 * (-0.4 + 1.39 * R + 0.43 / (1 - R)))
      / besselI 0 (1.006 * (-0.4 + 1.39 * R + 0.43 / (1 - R))) := by
  have hlt : ∀ x : ℝ, x ≤ R → x < 1 := fun x hx => by norm_num at h1 ⊢; linarith
  have := le_A1_curve (a := 0.53) (b := R) (η := 0)
    (K := fun x => 1.006 * (-0.4 + 1.39 * x + 0.43 / (1 - x)))
    (K' := fun x => 1.006 * (1.39 + 0.43 / (1 - x) ^ 2)) h0 le_rfl
    (fun x hx => mul_pos (by norm_num) (lt_trans (by norm_num) (mid_pos hx.1 (hlt x hx.2))))
    (fun x hx => (mid_deriv (hlt x hx.2)).const_mul 1.006) (fun x _ => by positivity) ?_ ?_
  · simpa using this
  · have hm := A1_strictMonoOn.monotoneOn (a := 1.259) (b := 1.006 * (-0.4 + 1.39 * 0.53 + 0.43 / (1 - 0.53)))
      (by norm_num) (by norm_num) (by norm_num)
    have := A1_at_mid_down
    simp only [sub_zero]
    exact this.trans hm
  · intro x hx
    have hx1 := hlt x hx.2.le
    rw [(mid_eq hx1).1, (mid_eq hx1).2]
    obtain ⟨d, hd⟩ : ∃ d, d = 1 - x := ⟨_, rfl⟩
    rw [← hd]
    have hd0 : 0.2 ≤ d := by rw [hd]; norm_num at h1 ⊢; linarith [hx.2]
    have hd1 : d ≤ 0.47 := by rw [hd]; have := hx.1; norm_num at this ⊢; linarith
    have hdp : 0 < d := lt_of_lt_of_le (by norm_num) hd0
    have hq := mid_q_pos hdp hd1
    have hq' : 0 < 1.006 * (0.43 + 0.99 * d - 1.39 * d ^ 2) := by positivity
    rw [← mul_div_assoc, ← mul_div_assoc, slope_eq hdp hq' (by rw [hd]; ring), one_lt_div (by positivity)]
    have key : 0 < (-72911359 / 1250000000) * d ^ 0 + (337260997 / 500000000) * d ^ 1 + (-7062759313 / 2500000000) * d ^ 2 + (6977506849 / 1250000000) * d ^ 3 + (-13258430627 / 2500000000) * d ^ 4 + (4888386889 / 2500000000) * d ^ 5 := by
      norm_num at hd0 hd1
      have hb : (-72911359 / 1250000000) * d ^ 0 + (337260997 / 500000000) * d ^ 1 + (-7062759313 / 2500000000) * d ^ 2 + (6977506849 / 1250000000) * d ^ 3 + (-13258430627 / 2500000000) * d ^ 4 + (4888386889 / 2500000000) * d ^ 5
          = (5720721994954523 / 50000000000000000000) + ((12655495310645477 / 71744535000000000) * ((d - (1 / 5)) ^ 0 * ((47 / 100) - d) ^ 5) + (175346931407285477 / 14348907000000000) * ((d - (1 / 5)) ^ 1 * ((47 / 100) - d) ^ 4) + (122151798142877477 / 7174453500000000) * ((d - (1 / 5)) ^ 2 * ((47 / 100) - d) ^ 3) + (61852556011853477 / 7174453500000000) * ((d - (1 / 5)) ^ 3 * ((47 / 100) - d) ^ 2) + (25304288941987157 / 14348907000000000) * ((d - (1 / 5)) ^ 4 * ((47 / 100) - d) ^ 1) + (5720721994954523 / 71744535000000000) * ((d - (1 / 5)) ^ 5 * ((47 / 100) - d) ^ 0)) := by ring
      rw [hb]
      have g1 : 0 ≤ d - (1 / 5) := by linarith
      have g2 : 0 ≤ (47 / 100) - d := by linarith
      positivity
    linarith

theorem kappa_mid_down_b {R : ℝ} (h0 : 0.8 ≤ R) (h1 : R ≤ 0.85) :
    R ≤ besselI 1 ((1.006 + 2 * (R - 0.8) ^ 2) * (-0.4 + 1.39 * R + 0.43 / (1 - R)))
      / besselI 0 ((1.006 + 2 * (R - 0.8) ^ 2) * (-0.4 + 1.39 * R + 0.43 / (1 - R))) := by
  have hlt : ∀ x : ℝ, x ≤ R → x < 1 := fun x hx => by norm_num at h1 ⊢; linarith
  have hge : ∀ x : ℝ, 0.8 ≤ x → 0.53 ≤ x := fun x hx => by norm_num at hx ⊢; linarith
  have hKp : ∀ x ∈ Icc 0.8 R, 0 < -0.4 + 1.39 * x + 0.43 / (1 - x) := fun x hx =>
    lt_trans (by norm_num) (mid_pos (hge x hx.1) (hlt x hx.2))
  have := le_A1_curve (a := 0.8) (b := R) (η := 0)
    (K := fun x => (1.006 + 2 * (x - 0.8) ^ 2) * (-0.4 + 1.39 * x + 0.43 / (1 - x)))
    (K' := fun x => 4 * (x - 0.8) * (-0.4 + 1.39 * x + 0.43 / (1 - x))
      + (1.006 + 2 * (x - 0.8) ^ 2) * (1.39 + 0.43 / (1 - x) ^ 2)) h0 le_rfl
    (fun x hx => mul_pos (by positivity) (hKp x hx)) ?_ ?_ ?_ ?_
  · simpa using this
  · intro x hx
    have d1 : HasDerivAt (fun x : ℝ => 1.006 + 2 * (x - 0.8) ^ 2) (4 * (x - 0.8)) x := by
      refine ((((hasDerivAt_id x).sub_const 0.8).pow 2).const_mul 2 |>.const_add 1.006).congr_deriv ?_
      simp; ring
    exact d1.mul (mid_deriv (hlt x hx.2))
  · intro x hx
    have := hKp x (Ico_subset_Icc_self hx)
    have h2 : 0 ≤ x - 0.8 := sub_nonneg.2 hx.1
    positivity
  · have := kappa_mid_down_a (R := 0.8) (by norm_num) le_rfl
    norm_num at this ⊢
    exact this
  · intro x hx
    have hx1 := hlt x hx.2.le
    rw [(mid_eq hx1).1, (mid_eq hx1).2]
    obtain ⟨d, hd⟩ : ∃ d, d = 1 - x := ⟨_, rfl⟩
    rw [← hd]
    have hd0 : 0.15 ≤ d := by rw [hd]; norm_num at h1 ⊢; linarith [hx.2]
    have hd1 : d ≤ 0.2 := by rw [hd]; have := hx.1; norm_num at this ⊢; linarith
    have hdp : 0 < d := lt_of_lt_of_le (by norm_num) hd0
    have hq := mid_q_pos hdp (hd1.trans (by norm_num))
    have hxd : x - 0.8 = 0.2 - d := by rw [hd]; ring
    rw [hxd]
    have hq' : 0 < (1.006 + 2 * (0.2 - d) ^ 2) * (0.43 + 0.99 * d - 1.39 * d ^ 2) := by positivity
    have e : 4 * (0.2 - d) * ((0.43 + 0.99 * d - 1.39 * d ^ 2) / d)
        + (1.006 + 2 * (0.2 - d) ^ 2) * ((0.43 + 1.39 * d ^ 2) / d ^ 2)
        = (4 * (0.2 - d) * (0.43 + 0.99 * d - 1.39 * d ^ 2) * d
          + (1.006 + 2 * (0.2 - d) ^ 2) * (0.43 + 1.39 * d ^ 2)) / d ^ 2 := by
      field_simp
    rw [e, ← mul_div_assoc, slope_eq hdp hq' (by rw [hd]; ring), one_lt_div (by positivity)]
    have key : 0 < (-38549199 / 1250000000) * d ^ 0 + (232392597 / 500000000) * d ^ 1 + (-6285269393 / 2500000000) * d ^ 2 + (10359013489 / 1250000000) * d ^ 3 + (-63080156147 / 2500000000) * d ^ 4 + (135154659529 / 2500000000) * d ^ 5 + (-280534807 / 3125000) * d ^ 6 + (75692783 / 625000) * d ^ 7 + (-223373 / 2500) * d ^ 8 + (57963 / 2500) * d ^ 9 := by
      norm_num at hd0 hd1
      have hb : (-38549199 / 1250000000) * d ^ 0 + (232392597 / 500000000) * d ^ 1 + (-6285269393 / 2500000000) * d ^ 2 + (10359013489 / 1250000000) * d ^ 3 + (-63080156147 / 2500000000) * d ^ 4 + (135154659529 / 2500000000) * d ^ 5 + (-280534807 / 3125000) * d ^ 6 + (75692783 / 625000) * d ^ 7 + (-223373 / 2500) * d ^ 8 + (57963 / 2500) * d ^ 9
          = (1435641977 / 7812500000000) + ((18896916542521 / 62500) * ((d - (3 / 20)) ^ 0 * ((1 / 5) - d) ^ 9) + (56013087779466 / 15625) * ((d - (3 / 20)) ^ 1 * ((1 / 5) - d) ^ 8) + (260387581793924 / 15625) * ((d - (3 / 20)) ^ 2 * ((1 / 5) - d) ^ 7) + (652222319781916 / 15625) * ((d - (3 / 20)) ^ 3 * ((1 / 5) - d) ^ 6) + (986493647522159 / 15625) * ((d - (3 / 20)) ^ 4 * ((1 / 5) - d) ^ 5) + (937073238972408 / 15625) * ((d - (3 / 20)) ^ 5 * ((1 / 5) - d) ^ 4) + (554133641244352 / 15625) * ((d - (3 / 20)) ^ 6 * ((1 / 5) - d) ^ 3) + (191408381305408 / 15625) * ((d - (3 / 20)) ^ 7 * ((1 / 5) - d) ^ 2) + (32448025165312 / 15625) * ((d - (3 / 20)) ^ 8 * ((1 / 5) - d) ^ 1) + (1470097384448 / 15625) * ((d - (3 / 20)) ^ 9 * ((1 / 5) - d) ^ 0)) := by ring
      rw [hb]
      have g1 : 0 ≤ d - (3 / 20) := by linarith
      have g2 : 0 ≤ (1 / 5) - d := by linarith
      positivity
    linarith

/-! ## The third piece, `0.85 ≤ R < 1` -/

theorem high_deriv {x : ℝ} (hne : x ^ 3 - 4 * x ^ 2 + 3 * x ≠ 0) :
    HasDerivAt (fun x : ℝ => 1 / (x ^ 3 - 4 * x ^ 2 + 3 * x))
      (-(3 * x ^ 2 - 8 * x + 3) / (x ^ 3 - 4 * x ^ 2 + 3 * x) ^ 2) x := by
  have d1 : HasDerivAt (fun x : ℝ => x ^ 3 - 4 * x ^ 2 + 3 * x) (3 * x ^ 2 - 8 * x + 3) x := by
    refine (((hasDerivAt_pow 3 x).sub ((hasDerivAt_pow 2 x).const_mul 4)).add
      ((hasDerivAt_id x).const_mul 3)).congr_deriv ?_
    norm_num; ring
  refine ((hasDerivAt_const x (1 : ℝ)).div d1 hne).congr_deriv ?_
  norm_num

theorem high_eq {d : ℝ} : (1 - d) ^ 3 - 4 * (1 - d) ^ 2 + 3 * (1 - d) = d * (2 - d - d ^ 2) := by ring

theorem high_v_pos {d : ℝ} (h0 : 0 < d) (h1 : d ≤ 0.15) : 0 < 2 - d - d ^ 2 := by
  norm_num at h1
  nlinarith

theorem high_pos {x : ℝ} (h0 : 0.85 ≤ x) (h1 : x < 1) : 0 < x ^ 3 - 4 * x ^ 2 + 3 * x := by
  have := high_eq (d := 1 - x)
  rw [sub_sub_cancel] at this
  rw [this]
  exact mul_pos (by linarith) (high_v_pos (by linarith) (by norm_num at h0 ⊢; linarith))

theorem high_slope {c d x : ℝ} (hc : 0 < c) (hx : x = 1 - d) (h0 : 0 < d) (h1 : d ≤ 0.15) :
    c * (-(3 * x ^ 2 - 8 * x + 3) / (x ^ 3 - 4 * x ^ 2 + 3 * x) ^ 2)
        * (1 - x / (c * (1 / (x ^ 3 - 4 * x ^ 2 + 3 * x))) - x ^ 2)
      = (2 - 2 * d - 3 * d ^ 2) * (c * (2 - d) - (1 - d) * (2 - d - d ^ 2)) / (d * (2 - d - d ^ 2) ^ 2) := by
  have hv := high_v_pos h0 h1
  rw [hx, high_eq]
  field_simp
  ring

theorem high_nom_neg {x : ℝ} (h0 : 0.85 ≤ x) (h1 : x < 1) : 0 ≤ -(3 * x ^ 2 - 8 * x + 3) := by
  norm_num at h0
  nlinarith

theorem kappa_high_up {R : ℝ} (h0 : 0.85 ≤ R) (h1 : R < 1) :
    besselI 1 (1 / (R ^ 3 - 4 * R ^ 2 + 3 * R)) / besselI 0 (1 / (R ^ 3 - 4 * R ^ 2 + 3 * R)) ≤ R := by
  have hlt : ∀ x : ℝ, x ≤ R → x < 1 := fun x hx => lt_of_le_of_lt hx h1
  have := A1_curve_le (a := 0.85) (b := R) (η := 0) (K := fun x => 1 / (x ^ 3 - 4 * x ^ 2 + 3 * x))
    (K' := fun x => -(3 * x ^ 2 - 8 * x + 3) / (x ^ 3 - 4 * x ^ 2 + 3 * x) ^ 2) (by norm_num) h0 le_rfl
    (fun x hx => one_div_pos.2 (high_pos hx.1 (hlt x hx.2)))
    (fun x hx => high_deriv (high_pos hx.1 (hlt x hx.2)).ne')
    (fun x hx => div_nonneg (high_nom_neg hx.1 (hlt x hx.2.le)) (by positivity)) ?_ ?_
  · simpa using this
  · have hm := A1_strictMonoOn.monotoneOn (a := 1 / (0.85 ^ 3 - 4 * 0.85 ^ 2 + 3 * 0.85)) (b := 3.648)
      (by norm_num) (by norm_num) (by norm_num)
    have := A1_at_high_up
    simp only [add_zero]
    exact hm.trans this
  · intro x hx
    have hd0 : 0 < 1 - x := by linarith [hlt x hx.2.le]
    have hd1 : 1 - x ≤ 0.15 := by have := hx.1; norm_num at this ⊢; linarith
    have hv := high_v_pos hd0 hd1
    have e := high_slope (c := 1) (x := x) one_pos (by ring) hd0 hd1
    rw [one_mul, one_mul] at e
    rw [e]
    generalize 1 - x = d at *
    rw [div_lt_one (by positivity)]
    norm_num at hd1
    have : 0 < d ^ 3 * (5 - 2 * d ^ 2) := mul_pos (by positivity) (by nlinarith)
    linarith

theorem kappa_high_down {R : ℝ} (h0 : 0.85 ≤ R) (h1 : R < 1) :
    R ≤ besselI 1 (1.011 * (1 / (R ^ 3 - 4 * R ^ 2 + 3 * R)))
      / besselI 0 (1.011 * (1 / (R ^ 3 - 4 * R ^ 2 + 3 * R))) := by
  have hlt : ∀ x : ℝ, x ≤ R → x < 1 := fun x hx => lt_of_le_of_lt hx h1
  have := le_A1_curve (a := 0.85) (b := R) (η := 0)
    (K := fun x => 1.011 * (1 / (x ^ 3 - 4 * x ^ 2 + 3 * x)))
    (K' := fun x => 1.011 * (-(3 * x ^ 2 - 8 * x + 3) / (x ^ 3 - 4 * x ^ 2 + 3 * x) ^ 2)) h0 le_rfl
    (fun x hx => mul_pos (by norm_num) (one_div_pos.2 (high_pos hx.1 (hlt x hx.2))))
    (fun x hx => (high_deriv (high_pos hx.1 (hlt x hx.2)).ne').const_mul 1.011)
    (fun x hx => mul_nonneg (by norm_num)
      (div_nonneg (high_nom_neg hx.1 (hlt x hx.2.le)) (by positivity))) ?_ ?_
  · simpa using this
  · have hm := A1_strictMonoOn.monotoneOn (a := 3.688) (b := 1.011 * (1 / (0.85 ^ 3 - 4 * 0.85 ^ 2 + 3 * 0.85)))
      (by norm_num) (by norm_num) (by norm_num)
    have := A1_at_high_down
    simp only [sub_zero]
    exact this.trans hm
  · intro x hx
    have hd0 : 0 < 1 - x := by linarith [hlt x hx.2.le]
    have hd1 : 1 - x ≤ 0.15 := by have := hx.1; norm_num at this ⊢; linarith
    have hv := high_v_pos hd0 hd1
    rw [high_slope (c := 1.011) (x := x) (by norm_num) (by ring) hd0 hd1]
    generalize 1 - x = d at *
    rw [one_lt_div (by positivity)]
    norm_num at hd1
    have b1 : 0 < 0.011 * (2 - 2 * d - 3 * d ^ 2) * (2 - d) - 5 * d ^ 3 := by
      have e2 : d ^ 2 ≤ 9 / 400 := by nlinarith
      have e3 : d ^ 3 ≤ 27 / 8000 := by nlinarith [pow_pos hd0 3]
      nlinarith
    have b2 : 0 < d ^ 5 := by positivity
    nlinarith

end Verif
