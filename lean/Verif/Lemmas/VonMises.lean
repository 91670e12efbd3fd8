import Verif.Model.DistVonMises
import Verif.Lemmas.Bessel
import Verif.Lemmas.FourierCos
import Verif.Lemmas.Poisson
import Mathlib.MeasureTheory.Integral.IntervalIntegral.Periodic
import Mathlib.MeasureTheory.Integral.DominatedConvergence
import Mathlib.Analysis.SpecificLimits.Basic

/-! # The von Mises distribution function as a series -/

set_option autoImplicit false

namespace Verif

open Real MeasureTheory

/-- The probability of `[0, θ]` from a primitive at the reduced angles. -/
theorem arc_reduce {K : ℝ → ℝ} (hK : ∀ (phi : ℝ) (k : ℤ), K (phi + k * (2 * π)) = K phi + k)
    {mu theta : ℝ} (ht0 : 0 ≤ theta) (ht1 : theta < 2 * π) :
    K (theta - mu) - K (0 - mu)
      = K (wrapPi (theta - mu)) - K (wrapPi (-mu))
        + if wrapPi (-mu) ≤ wrapPi (theta - mu) then 0 else 1 := by
  have hp := two_pi_pos
  obtain ⟨k, hk⟩ := wrapPi_cong (theta - mu)
  obtain ⟨j, hj⟩ := wrapPi_cong (-mu)
  have hm1 := wrapPi_mem (theta - mu)
  have hm2 := wrapPi_mem (-mu)
  have e1 : K (wrapPi (theta - mu)) = K (theta - mu) + k := by rw [hk, hK]
  have e2 : K (wrapPi (-mu)) = K (0 - mu) + j := by rw [hj, hK, zero_sub]
  rw [e1, e2]
  have hd : wrapPi (theta - mu) - wrapPi (-mu) = theta + ((k - j : ℤ) : ℝ) * (2 * π) := by
    rw [hk, hj]; push_cast; ring
  split_ifs with hc
  · have hlow : -1 < k - j := by
      by_contra h
      have h' : ((k - j : ℤ) : ℝ) ≤ -1 := by exact_mod_cast not_lt.mp h
      nlinarith
    have hup : k - j < 1 := by
      by_contra h
      have h' : (1 : ℝ) ≤ ((k - j : ℤ) : ℝ) := by exact_mod_cast not_lt.mp h
      nlinarith [hm1.2, hm2.1]
    have : k = j := by omega
    rw [this]; ring
  · have hlow : -2 < k - j := by
      by_contra h
      have h' : ((k - j : ℤ) : ℝ) ≤ -2 := by exact_mod_cast not_lt.mp h
      nlinarith [hm1.1, hm2.2]
    have hup : k - j < 0 := by
      by_contra h
      have h' : (0 : ℝ) ≤ ((k - j : ℤ) : ℝ) := by exact_mod_cast not_lt.mp h
      nlinarith [not_le.mp hc]
    have : k = j - 1 := by omega
    rw [this]; push_cast; ring

/-- A density of period `2π` symmetric about 0 with mass 1/2 on `[0, π]`: its primitive. -/
structure ArcPrim (f K : ℝ → ℝ) : Prop where
  cont : Continuous f
  prim : ∀ phi, K phi = ∫ t in (0 : ℝ)..phi, f t
  per : Function.Periodic f (2 * π)
  even : ∀ t, f (-t) = f t
  half : K π = 1 / 2

theorem ArcPrim.zero {f K : ℝ → ℝ} (h : ArcPrim f K) : K 0 = 0 := by
  rw [h.prim, intervalIntegral.integral_same]

theorem ArcPrim.neg {f K : ℝ → ℝ} (h : ArcPrim f K) (phi : ℝ) : K (-phi) = -K phi := by
  rw [h.prim, h.prim]
  have := intervalIntegral.integral_comp_neg (fun t => f t) (a := 0) (b := -phi)
  simp only [neg_neg, neg_zero, h.even] at this
  rw [this, intervalIntegral.integral_symm]

theorem ArcPrim.sub {f K : ℝ → ℝ} (h : ArcPrim f K) (a b : ℝ) :
    K b - K a = ∫ t in a..b, f t := by
  rw [h.prim, h.prim]
  exact intervalIntegral.integral_interval_sub_left (h.cont.intervalIntegrable _ _)
    (h.cont.intervalIntegrable _ _)

theorem ArcPrim.add_two_pi {f K : ℝ → ℝ} (h : ArcPrim f K) (phi : ℝ) :
    K (phi + 2 * π) = K phi + 1 := by
  have h1 := h.sub phi (phi + 2 * π)
  rw [h.per.intervalIntegral_add_eq phi (-π), show -π + 2 * π = π by ring, ← h.sub, h.neg, h.half]
    at h1
  linarith

theorem ArcPrim.add_int {f K : ℝ → ℝ} (h : ArcPrim f K) (phi : ℝ) (k : ℤ) :
    K (phi + k * (2 * π)) = K phi + k := by
  induction k using Int.induction_on with
  | zero => simp
  | succ i ih =>
    rw [show phi + ((i : ℤ) + 1 : ℤ) * (2 * π) = phi + (i : ℤ) * (2 * π) + 2 * π by push_cast; ring,
      h.add_two_pi, ih]; push_cast; ring
  | pred i ih =>
    have := h.add_two_pi (phi + ((-(i : ℤ) - 1 : ℤ) : ℝ) * (2 * π))
    rw [show phi + ((-(i : ℤ) - 1 : ℤ) : ℝ) * (2 * π) + 2 * π = phi + ((-(i : ℤ) : ℤ) : ℝ) * (2 * π) by
      push_cast; ring, ih] at this
    push_cast at this ⊢
    linarith

/-- The integral of the density centred at `mu`. -/
theorem ArcPrim.shift {f K : ℝ → ℝ} (h : ArcPrim f K) (mu a b : ℝ) :
    ∫ t in a..b, f (t - mu) = K (b - mu) - K (a - mu) := by
  rw [h.sub, intervalIntegral.integral_comp_sub_right]

/-! ## von Mises -/

/-- The primitive of the centred density. -/
noncomputable def vmK (kappa phi : ℝ) : ℝ := ∫ t in (0 : ℝ)..phi, vmPdf t 0 kappa

theorem vmPdf_shift (x mu kappa : ℝ) : vmPdf x mu kappa = vmPdf (x - mu) 0 kappa := by
  unfold vmPdf; rw [sub_zero]

theorem vmPdf_cont (mu kappa : ℝ) : Continuous fun x => vmPdf x mu kappa := by
  unfold vmPdf; fun_prop

theorem vmPdf_pos (x mu kappa : ℝ) : 0 < vmPdf x mu kappa := by
  have := besselI_zero_pos kappa
  have := pi_pos
  unfold vmPdf; positivity

theorem vmK_arc (kappa : ℝ) : ArcPrim (fun t => vmPdf t 0 kappa) (vmK kappa) where
  cont := vmPdf_cont 0 kappa
  prim _ := rfl
  per t := by simp only [vmPdf, sub_zero, cos_add_two_pi]
  even t := by simp only [vmPdf, sub_zero, cos_neg]
  half := by
    have h := besselI_pi 0 kappa
    have hp := besselI_zero_pos kappa
    have hpi := pi_pos
    unfold vmK vmPdf
    rw [intervalIntegral.integral_div]
    simp only [CharP.cast_eq_zero, zero_mul, cos_zero, mul_one] at h
    simp only [sub_zero]
    rw [h]
    field_simp

theorem vmPdf_integral (mu kappa a b : ℝ) :
    ∫ t in a..b, vmPdf t mu kappa = vmK kappa (b - mu) - vmK kappa (a - mu) := by
  rw [← (vmK_arc kappa).shift]
  simp only [vmPdf_shift _ mu]

theorem vmK_mono (kappa : ℝ) : StrictMono (vmK kappa) := by
  intro a b hab
  have := (vmK_arc kappa).sub a b
  have h2 : 0 < ∫ t in a..b, vmPdf t 0 kappa :=
    intervalIntegral.intervalIntegral_pos_of_pos ((vmPdf_cont 0 kappa).intervalIntegrable _ _)
      (fun t => vmPdf_pos t 0 kappa) hab
  linarith

theorem vm_cosSeries {kappa : ℝ} (hk : 0 < kappa) (t : ℝ) :
    HasSum (fun n : ℕ => 2 * besselI (n + 1) kappa * cos (((n + 1 : ℕ) : ℝ) * t))
      (exp (kappa * cos t) - besselI 0 kappa) :=
  cosSeries_hasSum (F := fun t => exp (kappa * cos t)) (a := fun n => besselI n kappa)
    (by fun_prop) (fun t => by simp only [cos_add_two_pi]) (fun t => by simp only [cos_neg])
    (fun n => rfl) (bessel_summable hk) t

/-- The series of the distribution function. -/
theorem vmK_hasSum {kappa : ℝ} (hk : 0 < kappa) (phi : ℝ) :
    HasSum (fun n : ℕ => vmCoeff kappa (n + 1) * sin (((n + 1 : ℕ) : ℝ) * phi))
      (π * (vmK kappa phi - phi / (2 * π))) := by
  have h0 := besselI_zero_pos kappa
  have hpi := pi_pos
  have hsum : Summable fun n : ℕ => 2 * besselI (n + 1) kappa :=
    ((summable_nat_add_iff 1).mpr (bessel_summable hk)).mul_left 2
  have key := intervalIntegral.hasSum_integral_of_dominated_convergence (μ := volume)
    (a := 0) (b := phi)
    (F := fun (n : ℕ) (t : ℝ) => 2 * besselI (n + 1) kappa * cos (((n + 1 : ℕ) : ℝ) * t))
    (f := fun t => exp (kappa * cos t) - besselI 0 kappa)
    (fun n _ => 2 * besselI (n + 1) kappa)
    (fun n => (by fun_prop : Continuous fun t : ℝ =>
      2 * besselI (n + 1) kappa * cos (((n + 1 : ℕ) : ℝ) * t)).aestronglyMeasurable)
    (fun n => Filter.Eventually.of_forall fun t _ => by
      have hb := besselI_pos (n + 1) hk
      rw [norm_mul, Real.norm_eq_abs, Real.norm_eq_abs, abs_of_pos (by positivity)]
      exact mul_le_of_le_one_right (by positivity) (abs_cos_le_one _))
    (Filter.Eventually.of_forall fun t _ => hsum) intervalIntegrable_const
    (Filter.Eventually.of_forall fun t _ => vm_cosSeries hk t)
  have e1 : ∀ n : ℕ, ∫ t in (0 : ℝ)..phi, 2 * besselI (n + 1) kappa * cos (((n + 1 : ℕ) : ℝ) * t)
      = 2 * besselI 0 kappa * (vmCoeff kappa (n + 1) * sin (((n + 1 : ℕ) : ℝ) * phi)) := by
    intro n
    have hn : (((n + 1 : ℕ) : ℝ)) ≠ 0 := by positivity
    rw [intervalIntegral.integral_const_mul, intervalIntegral.integral_comp_mul_left _ hn,
      integral_cos, mul_zero, sin_zero, sub_zero, smul_eq_mul]
    unfold vmCoeff
    field_simp
  have e2 : ∫ t in (0 : ℝ)..phi, (exp (kappa * cos t) - besselI 0 kappa)
      = 2 * besselI 0 kappa * (π * (vmK kappa phi - phi / (2 * π))) := by
    rw [intervalIntegral.integral_sub ((by fun_prop : Continuous fun t : ℝ =>
      exp (kappa * cos t)).intervalIntegrable _ _) intervalIntegrable_const,
      intervalIntegral.integral_const]
    unfold vmK vmPdf
    rw [intervalIntegral.integral_div]
    simp only [sub_zero, smul_eq_mul]
    field_simp
  rw [funext e1, e2] at key
  exact (hasSum_mul_left_iff (by positivity)).mp key

theorem vmCoeff_pos {kappa : ℝ} (hk : 0 < kappa) {n : ℕ} (hn : 0 < n) : 0 < vmCoeff kappa n := by
  have := besselI_pos n hk
  have := besselI_zero_pos kappa
  have : (0 : ℝ) < n := by exact_mod_cast hn
  unfold vmCoeff; positivity

/-! ## Ratios -/

/-- The ratio `I_{n+1} / I_n`. -/
noncomputable def bRatio (kappa : ℝ) (n : ℕ) : ℝ := besselI (n + 1) kappa / besselI n kappa

theorem bRatio_anti {kappa : ℝ} (hk : 0 < kappa) : Antitone (bRatio kappa) :=
  antitone_nat_of_succ_le fun n => (bessel_ratio_step n hk).1

theorem bRatio_pos {kappa : ℝ} (hk : 0 < kappa) (n : ℕ) : 0 < bRatio kappa n :=
  div_pos (besselI_pos _ hk) (besselI_pos _ hk)

theorem bRatio_lt_one {kappa : ℝ} (hk : 0 < kappa) (n : ℕ) : bRatio kappa n < 1 :=
  (div_lt_one (besselI_pos _ hk)).mpr (bessel_lt n hk)

theorem bessel_up {kappa : ℝ} (hk : 0 < kappa) (N m : ℕ) :
    besselI (N + m) kappa ≤ besselI N kappa * bRatio kappa N ^ m := by
  induction m with
  | zero => simp
  | succ m ih =>
    have h1 : besselI (N + (m + 1)) kappa = besselI (N + m) kappa * bRatio kappa (N + m) := by
      unfold bRatio
      rw [mul_div_cancel₀ _ (besselI_pos (N + m) hk).ne']; rfl
    rw [h1, pow_succ, ← mul_assoc]
    exact mul_le_mul ih (bRatio_anti hk (by omega)) (bRatio_pos hk _).le
      (mul_nonneg (besselI_pos N hk).le (pow_nonneg (bRatio_pos hk _).le _))

theorem bessel_down {kappa : ℝ} (hk : 0 < kappa) (N : ℕ) :
    besselI 0 kappa * bRatio kappa N ^ N ≤ besselI N kappa := by
  have : ∀ m ≤ N, besselI 0 kappa * bRatio kappa N ^ m ≤ besselI m kappa := by
    intro m
    induction m with
    | zero => intro _; simp
    | succ m ih =>
      intro hm
      have h1 : besselI (m + 1) kappa = besselI m kappa * bRatio kappa m := by
        unfold bRatio
        rw [mul_div_cancel₀ _ (besselI_pos m hk).ne']
      rw [h1, pow_succ, ← mul_assoc]
      exact mul_le_mul (ih (by omega)) (bRatio_anti hk (by omega)) (bRatio_pos hk _).le
        (besselI_pos m hk).le
  exact this N le_rfl

/-- When the coefficient of index `N ≤ 500` is below `1e-12` the ratio there is at most `0.96`. -/
theorem bRatio_stop {kappa : ℝ} (hk : 0 < kappa) {N : ℕ} (hN0 : 0 < N) (hN : N ≤ 500)
    (hc : vmCoeff kappa N < 1 / 10 ^ 12) : bRatio kappa N ≤ 96 / 100 := by
  by_contra hcon
  push Not at hcon
  have h0 := besselI_zero_pos kappa
  have hd := bessel_down hk N
  have hNr : (0 : ℝ) < N := by exact_mod_cast hN0
  have hNr2 : (N : ℝ) ≤ 500 := by exact_mod_cast hN
  unfold vmCoeff at hc
  rw [div_lt_iff₀ (by positivity)] at hc
  have h1 : besselI 0 kappa * (96 / 100) ^ 500 ≤ besselI N kappa := by
    refine le_trans ?_ hd
    apply mul_le_mul_of_nonneg_left _ h0.le
    calc ((96 : ℝ) / 100) ^ 500 ≤ (96 / 100) ^ N :=
          pow_le_pow_of_le_one (by norm_num) (by norm_num) hN
      _ ≤ _ := pow_le_pow_left₀ (by norm_num) hcon.le N
  have h2 : besselI N kappa < besselI 0 kappa * (500 / 10 ^ 12) := by
    refine hc.trans_le ?_
    have : besselI 0 kappa * N ≤ besselI 0 kappa * 500 := by gcongr
    linarith
  have h3 := lt_of_mul_lt_mul_left (h1.trans_lt h2) h0.le
  have h4 : (3 / 10 ^ 5 : ℝ) ≤ (96 / 100) ^ 250 := by norm_num
  have h5 : (3 / 10 ^ 5 : ℝ) ^ 2 ≤ ((96 / 100) ^ 250) ^ 2 := pow_le_pow_left₀ (by norm_num) h4 2
  rw [← pow_mul] at h5
  have h6 := h5.trans_lt h3
  norm_num at h6

/-- The truncated tail of the series. -/
theorem vm_tail {kappa : ℝ} (hk : 0 < kappa) {N : ℕ} (hN0 : 0 < N) (hN : N ≤ 500)
    (hc : vmCoeff kappa N < 1 / 10 ^ 12) (phi : ℝ) :
    |π * (vmK kappa phi - phi / (2 * π))
      - ∑ n ∈ Finset.range N, vmCoeff kappa (n + 1) * sin (((n + 1 : ℕ) : ℝ) * phi)|
      ≤ 24 / 10 ^ 12 := by
  have hr := bRatio_stop hk hN0 hN hc
  have hr0 := bRatio_pos hk N
  have h0 := besselI_zero_pos kappa
  have hIN := besselI_pos N hk
  have hNr : (0 : ℝ) < N := by exact_mod_cast hN0
  have hs := vmK_hasSum hk phi
  have ht := (hasSum_nat_add_iff' N).mpr hs
  have hb : ∀ m : ℕ, ‖vmCoeff kappa (m + N + 1) * sin (((m + N + 1 : ℕ) : ℝ) * phi)‖
      ≤ vmCoeff kappa N * (96 / 100) * (96 / 100) ^ m := by
    intro m
    have hcp := vmCoeff_pos hk (n := m + N + 1) (by omega)
    rw [norm_mul, Real.norm_eq_abs, Real.norm_eq_abs, abs_of_pos hcp]
    refine (mul_le_of_le_one_right hcp.le (abs_sin_le_one _)).trans ?_
    have h1 := bessel_up hk N (m + 1)
    have h2 : bRatio kappa N ^ (m + 1) ≤ (96 / 100) ^ (m + 1) := pow_le_pow_left₀ hr0.le hr _
    unfold vmCoeff
    rw [show m + N + 1 = N + (m + 1) by ring]
    have h3 : besselI (N + (m + 1)) kappa / (besselI 0 kappa * ((N + (m + 1) : ℕ) : ℝ))
        ≤ besselI N kappa * (96 / 100) ^ (m + 1) / (besselI 0 kappa * N) := by
      apply div_le_div₀ (by positivity) _ (by positivity)
      · apply mul_le_mul_of_nonneg_left _ h0.le
        push_cast; linarith [(Nat.cast_nonneg m : (0 : ℝ) ≤ m)]
      · exact h1.trans (mul_le_mul_of_nonneg_left h2 hIN.le)
    refine h3.trans (le_of_eq ?_)
    rw [pow_succ]; ring
  have hgeo : HasSum (fun m : ℕ => vmCoeff kappa N * (96 / 100) * (96 / 100 : ℝ) ^ m)
      (vmCoeff kappa N * (96 / 100) * (1 - 96 / 100)⁻¹) :=
    (hasSum_geometric_of_lt_one (by norm_num) (by norm_num)).mul_left _
  have : ‖π * (vmK kappa phi - phi / (2 * π))
      - ∑ n ∈ Finset.range N, vmCoeff kappa (n + 1) * sin (((n + 1 : ℕ) : ℝ) * phi)‖
      ≤ vmCoeff kappa N * (96 / 100) * (1 - 96 / 100)⁻¹ := by
    rw [← ht.tsum_eq]
    exact tsum_of_norm_bounded hgeo hb
  rw [Real.norm_eq_abs] at this
  refine this.trans ?_
  norm_num at hc ⊢
  linarith

/-! ## The loop -/

theorem vmLoop_spec {kappa phi base : ℝ} (hk : 0 < kappa) (fuel n : ℕ) (s sb : ℝ) (r : ℝ × ℝ)
    (h : vmLoop kappa phi base fuel (n + 1) s sb = some r)
    (hs : s = ∑ i ∈ Finset.range n, vmCoeff kappa (i + 1) * sin (((i + 1 : ℕ) : ℝ) * phi))
    (hsb : sb = ∑ i ∈ Finset.range n, vmCoeff kappa (i + 1) * sin (((i + 1 : ℕ) : ℝ) * base)) :
    ∃ N, 0 < N ∧ N ≤ n + fuel ∧ vmCoeff kappa N < 1 / 10 ^ 12 ∧
      r.1 = ∑ i ∈ Finset.range N, vmCoeff kappa (i + 1) * sin (((i + 1 : ℕ) : ℝ) * phi) ∧
      r.2 = ∑ i ∈ Finset.range N, vmCoeff kappa (i + 1) * sin (((i + 1 : ℕ) : ℝ) * base) := by
  induction fuel generalizing n s sb with
  | zero => cases h
  | succ fuel ih =>
    unfold vmLoop at h
    simp only at h
    split_ifs at h with hc
    · cases h
      refine ⟨n + 1, by omega, by omega, ?_, ?_, ?_⟩
      · have := hc.2
        rwa [abs_of_pos (vmCoeff_pos hk (by omega))] at this
      · rw [Finset.sum_range_succ, ← hs]
      · rw [Finset.sum_range_succ, ← hsb]
    · obtain ⟨N, a, b, c⟩ := ih (n + 1) _ _ h (by rw [Finset.sum_range_succ, ← hs])
        (by rw [Finset.sum_range_succ, ← hsb])
      exact ⟨N, a, by omega, c⟩

theorem vmLoop_some {kappa phi base : ℝ} (hk : 0 < kappa) (fuel n : ℕ) (s sb : ℝ) (N : ℕ)
    (hn : n ≤ N) (hN : N < n + fuel) (hn0 : 0 < n) (hc : vmCoeff kappa N < 1 / 10 ^ 12) :
    ∃ r, vmLoop kappa phi base fuel n s sb = some r := by
  induction fuel generalizing n s sb with
  | zero => omega
  | succ fuel ih =>
    unfold vmLoop
    simp only
    split_ifs with h
    · exact ⟨_, rfl⟩
    · rcases hn.eq_or_lt with e | e
      · exfalso
        apply h
        subst e
        have hp := vmCoeff_pos hk hn0
        rw [abs_of_pos hp]
        refine ⟨?_, hc⟩
        rw [abs_mul, abs_of_pos hp]
        exact lt_of_le_of_lt (mul_le_of_le_one_right hp.le (abs_sin_le_one _)) hc
      · exact ih (n + 1) _ _ (by omega) (by omega) (by omega)

/-- The ratio of order 250. -/
theorem bRatio_250 {kappa : ℝ} (hk : 0 < kappa) : bRatio kappa 250 ≤ kappa / (kappa + 250) := by
  have h1 : (bRatio kappa 250)⁻¹ = bRatio kappa 251 + 502 / kappa := by
    have := bessel_ratio_rec 250 hk
    unfold bRatio
    rw [inv_div, this]; norm_num
  have h2 : (bRatio kappa 251)⁻¹ = bRatio kappa 252 + 504 / kappa := by
    have := bessel_ratio_rec 251 hk
    unfold bRatio
    rw [inv_div, this]; norm_num
  have h3 := bRatio_anti hk (by norm_num : 251 ≤ 252)
  have p1 := bRatio_pos hk 250
  have p2 := bRatio_pos hk 251
  generalize bRatio kappa 250 = a at *
  generalize bRatio kappa 251 = b at *
  generalize bRatio kappa 252 = c at *
  have h4 : 1 ≤ b * (b + 504 / kappa) := by
    have : b * b⁻¹ = 1 := mul_inv_cancel₀ p2.ne'
    rw [h2] at this
    nlinarith
  have hu : 0 < 1 / kappa := by positivity
  have e1 : 504 / kappa = 504 * (1 / kappa) := by ring
  have e2 : 502 / kappa = 502 * (1 / kappa) := by ring
  rw [e1] at h4
  rw [e2] at h1
  generalize hv : 1 / kappa = v at *
  have h5 : 1 - 252 * v ≤ b := by
    by_contra hcon
    push Not at hcon
    nlinarith
  have h6 : 1 + 250 * v ≤ a⁻¹ := by rw [h1]; linarith
  have h7 : a * (1 + 250 * v) ≤ 1 := by
    have : a * a⁻¹ = 1 := mul_inv_cancel₀ p1.ne'
    nlinarith
  rw [le_div_iff₀ (by linarith)]
  have : kappa * v = 1 := by rw [← hv]; field_simp
  have h8 := mul_le_mul_of_nonneg_left h7 hk.le
  have : kappa * (a * (1 + 250 * v)) = a * (kappa + 250) := by
    linear_combination (250 * a) * this
  linarith

/-- For `kappa` up to 2500 the series converges within the 500 rounds. -/
theorem vmLoop_converges {kappa : ℝ} (hk : 0 < kappa) (hk1 : kappa ≤ 2500) (phi base : ℝ) :
    ∃ r, vmLoop kappa phi base 500 1 0 0 = some r := by
  refine vmLoop_some hk 500 1 0 0 500 (by norm_num) (by norm_num) (by norm_num) ?_
  have h0 := besselI_zero_pos kappa
  have h1 := bessel_up hk 250 250
  have h2 : bRatio kappa 250 ≤ 91 / 100 := by
    refine (bRatio_250 hk).trans ?_
    rw [div_le_iff₀ (by linarith)]; linarith
  have h3 : bRatio kappa 250 ^ 250 ≤ (91 / 100) ^ 250 :=
    pow_le_pow_left₀ (bRatio_pos hk _).le h2 _
  have h4 : besselI 250 kappa ≤ besselI 0 kappa := by
    have := bessel_up hk 0 250
    rw [zero_add] at this
    exact this.trans (mul_le_of_le_one_right h0.le
      (pow_le_one₀ (bRatio_pos hk _).le (bRatio_lt_one hk _).le))
  have h5 : ((91 : ℝ) / 100) ^ 250 ≤ 1 / 10 ^ 10 := by norm_num
  have h6 : besselI 500 kappa ≤ besselI 0 kappa * (1 / 10 ^ 10) :=
    h1.trans (mul_le_mul h4 (h3.trans h5) (pow_nonneg (bRatio_pos hk _).le _) h0.le)
  unfold vmCoeff
  rw [div_lt_iff₀ (by positivity)]
  refine h6.trans_lt ?_
  push_cast
  nlinarith

end Verif
