import Verif.Props.DistWrapNorm
import Verif.Lemmas.WrapNormLik
import Verif.Props.DistCartwrightB
import Verif.Spec.Likelihood

/-! # C83, C102, C109, C112: samples and fits of the wrapped normal distribution -/

set_option autoImplicit false

namespace Verif

open Verif.Spec Real MeasureTheory ProbabilityTheory

/-! ## C102: samples -/

/-- **C102.** Samples of the wrapped normal distribution: if `z` is drawn from the standard normal distribution, the
probability that the sample is at most `x` is the integral of the wrapped normal density from 0 to `x`; every sample lies
in `[0, 2π)`. -/
theorem C102_wrapnorm {mu rho x : ℝ} (u : ℝ) (h0 : 1 / 10 ^ 12 < rho) (h1 : rho ≤ 1 - 1 / 10 ^ 15) (hx0 : 0 ≤ x)
    (hx1 : x ≤ 2 * π) :
    (∀ z, 0 ≤ wnRvs z u mu rho ∧ wnRvs z u mu rho < 2 * π) ∧
    (gaussianReal 0 1).real {z | wnRvs z u mu rho ≤ x} = ∫ t in (0 : ℝ)..x, wrappedNormal mu √(-2 * log rho) t := by
  have h0' : 0 < rho := lt_trans (by positivity) h0
  have h1' : rho < 1 := h1.trans_lt (by norm_num)
  have hcl : clip rho floatTiny (1 - 1 / 10 ^ 15) = rho := by
    unfold clip
    rw [max_eq_left ((floatTiny_le_small.trans (by norm_num)).trans h0.le), min_eq_left h1]
  have hsg : ¬ wnSigma rho < 1 / 10 ^ 12 := by
    rw [wnSigma_eq h0 h1]
    push Not
    refine le_sqrt_of_sq_le ?_
    have := log_le_sub_one_of_pos h0'
    norm_num at h1 ⊢
    linarith
  have hval : ∀ z, wnRvs z u mu rho = pymod (pymod mu (2 * π) + √(-2 * log rho) * z) (2 * π) := fun z => by
    unfold wnRvs
    rw [hcl, if_neg (not_le.mpr h0), if_neg hsg, wnSigma_eq h0 h1]
  simp only [hval]
  refine ⟨fun z => ⟨pymod_nonneg two_pi_pos _, pymod_lt two_pi_pos _⟩, ?_⟩
  rw [wn_sample (wn_sigma_pos h0' h1') hx0 hx1]
  simp only [wn_pymod]

/-- **C102.** For `rho ≤ 1e-12` the sample is uniform on the circle. -/
theorem C102_wrapnorm_uniform {mu rho x : ℝ} (z : ℝ) (h1 : rho ≤ 1 / 10 ^ 12) (hx0 : 0 ≤ x) (hx1 : x ≤ 2 * π) :
    (volume.restrict (Set.Ico (0 : ℝ) 1)).real {u | wnRvs z u mu rho ≤ x} = x / (2 * π) := by
  have hcl : clip rho floatTiny (1 - 1 / 10 ^ 15) ≤ 1 / 10 ^ 12 := by
    unfold clip
    exact (min_le_left _ _).trans (max_le h1 (floatTiny_le_small.trans (by norm_num)))
  have hval : ∀ u, wnRvs z u mu rho = 2 * π * u := fun u => by
    unfold wnRvs
    rw [if_pos hcl]
  simp only [hval]
  have hset : {u : ℝ | 2 * π * u ≤ x} = Set.Iic (x / (2 * π)) := by
    ext u
    simp only [Set.mem_ofPred_eq, Set.mem_Iic]
    rw [le_div_iff₀ two_pi_pos, mul_comm]
  have hx2 : x / (2 * π) ≤ 1 := by rw [div_le_one two_pi_pos]; exact hx1
  have hx3 : 0 ≤ x / (2 * π) := by positivity
  rw [hset, measureReal_restrict_apply measurableSet_Iic]
  rcases hx2.eq_or_lt with h | h
  · have : Set.Iic (x / (2 * π)) ∩ Set.Ico (0 : ℝ) 1 = Set.Ico 0 1 := by
      rw [h]; ext t; simp only [Set.mem_inter_iff, Set.mem_Iic, Set.mem_Ico]
      exact ⟨fun a => a.2, fun a => ⟨a.2.le, a⟩⟩
    rw [this, h]; simp
  · have : Set.Iic (x / (2 * π)) ∩ Set.Ico (0 : ℝ) 1 = Set.Icc 0 (x / (2 * π)) := by
      ext t; simp only [Set.mem_inter_iff, Set.mem_Iic, Set.mem_Ico, Set.mem_Icc]
      exact ⟨fun a => ⟨a.2.1, a.1⟩, fun a => ⟨a.2, a.1, a.2.trans_lt h⟩⟩
    rw [this]; simp [hx3]

/-! ## C83 -/

/-- **C83.** Every estimate of `wrapnorm.fit`, whatever the optimiser returns, is accepted by the distribution itself. -/
theorem C83_wrapnorm (ndtri : ℝ → ℝ) (f : ℝ → ℝ → ℝ → ℝ)
    (minimize : (ℝ × ℝ → Option ℝ) → ℝ × ℝ → MinResult 2) (win : ℝ → ℝ → ℕ)
    (data : List ℝ) (weights : Option (List ℝ)) (method : String) (s : ℝ × ℝ)
    (h : wnFit minimize win data weights method = .ok s) : (wrapnorm ndtri f).argcheck s := by
  have hc : ∀ v : ℝ, 0 < clip v (1 / 10 ^ 9) (1 - 1 / 10 ^ 9) ∧ clip v (1 / 10 ^ 9) (1 - 1 / 10 ^ 9) < 1 := fun v => by
    obtain ⟨a, b⟩ := clip_mem (v := v) (lo := 1 / 10 ^ 9) (hi := 1 - 1 / 10 ^ 9) (by norm_num)
    exact ⟨lt_of_lt_of_le (by norm_num) a, lt_of_le_of_lt b (by norm_num)⟩
  unfold wnFit at h
  simp only at h
  rcases hw : fitWeights (data.map wrap2pi).length weights with e | w
  · rw [hw] at h
    split_ifs at h <;> cases h
  · rw [hw] at h
    simp only [bind, Except.bind] at h
    split_ifs at h <;> cases h <;> exact ⟨wrap2pi_mem _, hc _⟩

/-- The moments fit. -/
lemma wnFit_moments (minimize : (ℝ × ℝ → Option ℝ) → ℝ × ℝ → MinResult 2) (win : ℝ → ℝ → ℕ)
    {data : List ℝ} (hreg : ∀ x ∈ data, RegularAngle x) {weights : Option (List ℝ)} {mu rho : ℝ}
    (h : wnFit minimize win data weights "moments" = .ok (mu, rho)) :
    mu = wrapDirection (fitStart data (fullWeights data.length weights)).1 ∧
      rho = clip ‖moment data (fullWeights data.length weights) 1‖ (1 / 10 ^ 9) (1 - 1 / 10 ^ 9) ∧
      (1 / 10 ^ 12 < ‖moment data (fullWeights data.length weights) 1‖ →
        (fitStart data (fullWeights data.length weights)).1
          = angmod2pi (Complex.arg (moment data (fullWeights data.length weights) 1))) := by
  rcases hw : fitWeights data.length weights with e | w
  · unfold wnFit at h
    simp only [map_wrap_regular hreg, hw, bind, Except.bind] at h
    split_ifs at h
  obtain ⟨hl, hwn, hW⟩ := fitWeights_ok hw
  rw [fitWeights_full hw]
  unfold wnFit at h
  simp only [map_wrap_regular hreg, hw, bind, Except.bind] at h
  rw [if_neg (by intro h0; rw [if_pos h0] at h; cases h), if_neg (by simp), if_pos (by simp)] at h
  simp only [Except.ok.injEq, Prod.mk.injEq] at h
  obtain ⟨rfl, rfl⟩ := h
  refine ⟨rfl, ?_, ?_⟩
  · congr 1
    unfold fitStart
    rw [circMeanAndR_eq, if_neg hW.ne']
  · intro c
    unfold fitStart
    rw [circMeanAndR_eq, if_neg hW.ne', if_neg (not_le.mpr c)]
    exact pymod_eq_self two_pi_pos (angmod2pi_nonneg _) (angmod2pi_lt _)

/-- **C112.** The moments fit returns the mean resultant length of the sample, limited to `[1e-9, 1 - 1e-9]`; unless it
is one of these limits the fitted `pdf` has the first trigonometric moment of the sample (unless the direction was moved
to `2π` because it was within `1e-14` of it). -/
theorem C112_moments (ndtri : ℝ → ℝ) (f : ℝ → ℝ → ℝ → ℝ) (minimize : (ℝ × ℝ → Option ℝ) → ℝ × ℝ → MinResult 2)
    (win : ℝ → ℝ → ℕ) (data : List ℝ) (hreg : ∀ x ∈ data, RegularAngle x) (weights : Option (List ℝ)) (mu rho : ℝ)
    (h : wnFit minimize win data weights "moments" = .ok (mu, rho)) :
    rho = max (1 / 10 ^ 9) (min ‖moment data (fullWeights data.length weights) 1‖ (1 - 1 / 10 ^ 9)) ∧
    (1 / 10 ^ 9 < rho → rho < 1 - 1 / 10 ^ 9 → mu ≠ 2 * π →
      ∃ g : ℝ → ℝ, Continuous g ∧ (∀ x, RegularAngle x → distPdf (wrapnorm ndtri f) x (mu, rho) = some (g x)) ∧
      ∫ x in (0 : ℝ)..(2 * π), cos x * g x = (moment data (fullWeights data.length weights) 1).re ∧
      ∫ x in (0 : ℝ)..(2 * π), sin x * g x = (moment data (fullWeights data.length weights) 1).im) := by
  obtain ⟨h1, h2, h3⟩ := wnFit_moments minimize win hreg h
  have h9 : (1 : ℝ) / 10 ^ 9 ≤ 1 - 1 / 10 ^ 9 := by norm_num
  obtain ⟨z, hz⟩ : ∃ z, z = moment data (fullWeights data.length weights) 1 := ⟨_, rfl⟩
  rw [← hz] at h2 h3 ⊢
  refine ⟨?_, fun r0 r1 hmu => ?_⟩
  · rw [h2]
    unfold clip
    rcases le_total ‖z‖ (1 / 10 ^ 9) with c | c
    · rw [max_eq_right c, min_eq_left h9, min_eq_left (c.trans h9), max_eq_left c]
    · rw [max_eq_left c, max_eq_right (le_min c h9)]
  have hR : rho = ‖z‖ := by
    rw [h2] at r0 r1 ⊢
    unfold clip at r0 r1 ⊢
    rcases le_total ‖z‖ (1 / 10 ^ 9) with c | c
    · rw [max_eq_right c, min_eq_left h9] at r0
      exact absurd r0 (lt_irrefl _)
    · rw [max_eq_left c] at r1 ⊢
      rcases le_total ‖z‖ (1 - 1 / 10 ^ 9) with d | d
      · exact min_eq_left d
      · rw [min_eq_right d] at r1
        exact absurd r1 (lt_irrefl _)
  have h3' := h3 (lt_trans (by norm_num) (hR ▸ r0))
  obtain ⟨s0, s1⟩ := fitStart_range data (fullWeights data.length weights)
  have hmuE : mu = angmod2pi (Complex.arg z) := by
    rw [h1] at hmu ⊢
    rw [far_of_ne hmu, pymod_eq_self two_pi_pos s0 s1, h3']
  have hpol := polar_angmod z
  rw [← hmuE, ← hR] at hpol
  have hm0 : 0 ≤ mu := hmuE ▸ angmod2pi_nonneg _
  have hm1 : mu ≤ 2 * π := hmuE ▸ (angmod2pi_lt _).le
  have hre : z.re = rho * cos mu := by
    rw [hpol, Complex.re_ofReal_mul, Complex.exp_ofReal_mul_I_re]
  have him : z.im = rho * sin mu := by
    rw [hpol, Complex.im_ofReal_mul, Complex.exp_ofReal_mul_I_im]
  have h9' : (0 : ℝ) < 1 / 10 ^ 9 := by positivity
  obtain ⟨g, g1, -, g3, -, g5, g6, -⟩ := C112_density ndtri f hm0 hm1 (h9'.trans r0) (by linarith)
  have i1 : IntervalIntegrable (fun x => cos (x - mu) * g x) volume 0 (2 * π) :=
    ((continuous_cos.comp (continuous_id.sub continuous_const)).mul g3).intervalIntegrable _ _
  have i2 : IntervalIntegrable (fun x => sin (x - mu) * g x) volume 0 (2 * π) :=
    ((continuous_sin.comp (continuous_id.sub continuous_const)).mul g3).intervalIntegrable _ _
  refine ⟨g, g3, g1, ?_, ?_⟩
  · have e : ∀ x, cos x * g x = cos mu * (cos (x - mu) * g x) - sin mu * (sin (x - mu) * g x) := fun x => by
      have := cos_add (x - mu) mu
      rw [sub_add_cancel] at this
      rw [this]; ring
    simp only [e]
    rw [intervalIntegral.integral_sub (i1.const_mul _) (i2.const_mul _), intervalIntegral.integral_const_mul,
      intervalIntegral.integral_const_mul, g5, g6, hre]
    ring
  · have e : ∀ x, sin x * g x = sin mu * (cos (x - mu) * g x) + cos mu * (sin (x - mu) * g x) := fun x => by
      have := sin_add (x - mu) mu
      rw [sub_add_cancel] at this
      rw [this]; ring
    simp only [e]
    rw [intervalIntegral.integral_add (i1.const_mul _) (i2.const_mul _), intervalIntegral.integral_const_mul,
      intervalIntegral.integral_const_mul, g5, g6, him]
    ring

/-- **C112 (negative).** The moments fit of any sample with mean resultant length at least 0.96 gives a distribution whose
`pdf` is negative opposite to its centre. -/
theorem C112_fit_negative (ndtri : ℝ → ℝ) (f : ℝ → ℝ → ℝ → ℝ) (minimize : (ℝ × ℝ → Option ℝ) → ℝ × ℝ → MinResult 2)
    (win : ℝ → ℝ → ℕ) (data : List ℝ) (hreg : ∀ x ∈ data, RegularAngle x) (weights : Option (List ℝ)) (mu rho : ℝ)
    (h : wnFit minimize win data weights "moments" = .ok (mu, rho))
    (hR : 96 / 100 ≤ ‖moment data (fullWeights data.length weights) 1‖) (x : ℝ) (hx : RegularAngle x)
    (ho : cos (x - mu) = -1) : ∃ v, v < 0 ∧ distPdf (wrapnorm ndtri f) x (mu, rho) = some v := by
  have harg := C83_wrapnorm ndtri f minimize win data weights "moments" (mu, rho) h
  obtain ⟨h1, h2, -⟩ := wnFit_moments minimize win hreg h
  refine (C112_negative ndtri f harg.1.1 harg.1.2 ?_ harg.2.2 hx ho).1
  rw [h2]
  unfold clip
  exact le_min (hR.trans (le_max_left _ _)) (by norm_num)

/-! ## C109 -/

lemma zipWith_sum_sub_fun {f g : ℝ → ℝ → ℝ} : ∀ {x w : List ℝ},
    (List.zipWith (fun xi wi => f xi wi - g xi wi) x w).sum = (List.zipWith f x w).sum - (List.zipWith g x w).sum
  | [], _ => by simp
  | _ :: _, [] => by simp
  | a :: x, b :: w => by
    simp only [List.zipWith_cons_cons, List.sum_cons]
    rw [zipWith_sum_sub_fun (x := x) (w := w)]
    ring

/-- The objective is the negative log-likelihood of the wrapped normal density, up to `2.5e-8` per unit of weight. -/
theorem wnNll_error {win : ℝ → ℝ → ℕ} (hwin : ∀ m r, 5 ≤ win m r) {data w : List ℝ} (hl : w.length = data.length)
    (hreg : ∀ x ∈ data, RegularAngle x) (hw : ∀ v ∈ w, 0 ≤ v) {mu rho : ℝ} (hm0 : 0 ≤ mu) (hm1 : mu ≤ 2 * π) (h0 : 0 < rho)
    (h1 : rho ≤ 1 - 1 / 10 ^ 12) :
    ∃ v, wnNll win data w mu rho = some v ∧
      |v + logLik (fun y => some (wrappedNormal mu √(-2 * log rho) y)) data w| ≤ 25 / 10 ^ 9 * w.sum := by
  have h1' : rho < 1 := h1.trans_lt (by norm_num)
  unfold wnNll
  rw [if_neg (not_not.mpr ⟨h0.le, h1'⟩)]
  refine ⟨_, rfl, ?_⟩
  unfold logLik
  simp only [Option.getD_some]
  have hterm : ∀ xi ∈ data, |wnLogpdf data (win mu rho) mu rho xi - log (wrappedNormal mu √(-2 * log rho) xi)| ≤ 25 / 10 ^ 9 := by
    intro xi hx
    refine wnLogpdf_error (hwin _ _) hx ?_ h0 h1
    have a := (hreg xi hx).1
    have b := regular_le (hreg xi hx)
    rw [abs_le]
    constructor <;> linarith
  have hW : ∀ c : ℝ, (List.zipWith (fun (_ : ℝ) wi => c * wi) data w).sum = c * w.sum := by
    intro c
    clear hreg hw hterm
    induction data generalizing w with
    | nil => have : w = [] := by simpa using hl
             subst this; simp
    | cons a data ih =>
      cases w with
      | nil => simp at hl
      | cons b w =>
        simp only [List.zipWith_cons_cons, List.sum_cons]
        rw [ih (by simpa using hl)]; ring
  have u1 : (List.zipWith (fun xi wi => wi * log (wrappedNormal mu √(-2 * log rho) xi) - wi * wnLogpdf data (win mu rho) mu rho xi) data w).sum
      ≤ (List.zipWith (fun (_ : ℝ) wi => 25 / 10 ^ 9 * wi) data w).sum :=
    zipWith_sum_le fun xi hx wi hwi => by
      have := (abs_le.mp (hterm xi hx)).1
      nlinarith [hw wi hwi]
  have u2 : (List.zipWith (fun xi wi => wi * wnLogpdf data (win mu rho) mu rho xi - wi * log (wrappedNormal mu √(-2 * log rho) xi)) data w).sum
      ≤ (List.zipWith (fun (_ : ℝ) wi => 25 / 10 ^ 9 * wi) data w).sum :=
    zipWith_sum_le fun xi hx wi hwi => by
      have := (abs_le.mp (hterm xi hx)).2
      nlinarith [hw wi hwi]
  rw [hW, zipWith_sum_sub_fun] at u1 u2
  rw [abs_le]
  constructor <;> linarith

/-- **C109.** Wrapped normal distribution: if a successful optimiser returns a point, within the bounds, whose objective
value exceeds no other value within the bounds by more than `eta`, then the estimate of `fit(method="mle")` has, up to
`eta` and `5e-8` per unit of weight, the largest weighted likelihood that the wrapped normal density attains within the
bounds. This holds whatever window sizes earlier calls have left behind. -/
theorem C109_wrapnorm (eta : ℝ) (minimize : (ℝ × ℝ → Option ℝ) → ℝ × ℝ → MinResult 2)
    (hmin : ∀ obj start, (minimize obj start).success →
      (0 ≤ (minimize obj start).x 0 ∧ (minimize obj start).x 0 ≤ 2 * π) ∧
      (1 / 10 ^ 9 ≤ (minimize obj start).x 1 ∧ (minimize obj start).x 1 ≤ 1 - 1 / 10 ^ 9) ∧
      ∀ a b u, 0 ≤ a → a ≤ 2 * π → 1 / 10 ^ 9 ≤ b → b ≤ 1 - 1 / 10 ^ 9 → obj (a, b) = some u →
        ∃ v, obj ((minimize obj start).x 0, (minimize obj start).x 1) = some v ∧ v ≤ u + eta)
    (win : ℝ → ℝ → ℕ) (hwin : ∀ m r, 5 ≤ win m r)
    (data : List ℝ) (hreg : ∀ x ∈ data, RegularAngle x) (weights : Option (List ℝ)) (mu rho : ℝ)
    (h : wnFit minimize win data weights "mle" = .ok (mu, rho)) (hmu : mu ≠ 2 * π) :
    (0 ≤ mu ∧ mu ≤ 2 * π ∧ 1 / 10 ^ 9 ≤ rho ∧ rho ≤ 1 - 1 / 10 ^ 9) ∧
    ∀ m r, 0 ≤ m → m ≤ 2 * π → 1 / 10 ^ 9 ≤ r → r ≤ 1 - 1 / 10 ^ 9 →
      logLik (fun y => some (wrappedNormal m √(-2 * log r) y)) data (fullWeights data.length weights)
        ≤ logLik (fun y => some (wrappedNormal mu √(-2 * log rho) y)) data (fullWeights data.length weights)
          + eta + 5 / 10 ^ 8 * (fullWeights data.length weights).sum := by
  have h9 : (0 : ℝ) < 1 / 10 ^ 9 := by positivity
  have h912 : (1 : ℝ) - 1 / 10 ^ 9 ≤ 1 - 1 / 10 ^ 12 := by norm_num
  rcases hw : fitWeights data.length weights with e | w
  · unfold wnFit at h
    simp only [map_wrap_regular hreg, hw, bind, Except.bind] at h
    split_ifs at h
  obtain ⟨hl, hwn, hW⟩ := fitWeights_ok hw
  rw [fitWeights_full hw]
  unfold wnFit at h
  simp only [map_wrap_regular hreg, hw, bind, Except.bind] at h
  rw [if_neg (by intro h0; rw [if_pos h0] at h; cases h), if_neg (by simp), if_neg (by simp)] at h
  generalize hr : minimize _ _ = r at h
  split_ifs at h with c
  simp only [Except.ok.injEq, Prod.mk.injEq] at h
  obtain ⟨h1, h2⟩ := h
  have hm := hmin (fun p => wnNll win data w p.1 p.2) _ (by rw [hr]; simpa using c)
  rw [hr] at hm
  obtain ⟨⟨b0, b1⟩, ⟨b2, b3⟩, hopt⟩ := hm
  have e1 : r.x 0 = mu := by
    rw [← h1] at hmu ⊢
    rw [far_of_ne hmu]
    refine (pymod_eq_self two_pi_pos b0 (lt_of_le_of_ne b1 fun e => hmu ?_)).symm
    rw [e]
    exact wrap2pi_close (by rw [sub_self, abs_zero]; exact wrapTol_pos.le)
  have e2 : r.x 1 = rho := by
    rw [← h2]; unfold clip; rw [max_eq_left b2, min_eq_left b3]
  rw [e1] at b0 b1 hopt
  rw [e2] at b2 b3 hopt
  refine ⟨⟨b0, b1, b2, b3⟩, fun m r' m0 m1 r0 r1 => ?_⟩
  obtain ⟨u, hu, hue⟩ := wnNll_error hwin hl hreg hwn m0 m1 (h9.trans_le r0) (r1.trans h912)
  obtain ⟨v, hv, hve⟩ := wnNll_error hwin hl hreg hwn b0 b1 (h9.trans_le b2) (b3.trans h912)
  obtain ⟨v', hv', hle⟩ := hopt m r' u m0 m1 r0 r1 hu
  have : v' = v := by
    have := hv'.symm.trans hv
    simpa using this
  subst this
  have a1 := (abs_le.mp hue).2
  have a2 := (abs_le.mp hve).1
  have e5 : 5 / 10 ^ 8 * w.sum = 25 / 10 ^ 9 * w.sum + 25 / 10 ^ 9 * w.sum := by ring
  rw [e5]
  linarith

/-- **C109.** When the optimiser reports failure, the fit raises RuntimeError. -/
theorem C109_wrapnorm_failure (minimize : (ℝ × ℝ → Option ℝ) → ℝ × ℝ → MinResult 2)
    (hopt : ∀ obj start, (minimize obj start).success = false) (win : ℝ → ℝ → ℕ) (data : List ℝ) (hne : data ≠ [])
    (weights : Option (List ℝ)) (w : List ℝ) (hw : fitWeights data.length weights = .ok w) :
    wnFit minimize win data weights "mle" = .error .runtimeError := by
  unfold wnFit
  simp only [List.length_map, hw, bind, Except.bind]
  rw [if_neg (by simpa using hne)]
  simp [hopt]

/-! ## Non-vacuity -/

/-- C102: the hypotheses hold for `rho = 1/2`. -/
example : (1 : ℝ) / 10 ^ 12 < 1 / 2 ∧ (1 / 2 : ℝ) ≤ 1 - 1 / 10 ^ 15 := by norm_num

/-- C112, C83: one observation at 1 is fitted by `(1, 1 - 1e-9)`, whose `pdf` is negative at `1 + π`. -/
example (ndtri : ℝ → ℝ) (f : ℝ → ℝ → ℝ → ℝ) (minimize : (ℝ × ℝ → Option ℝ) → ℝ × ℝ → MinResult 2) (win : ℝ → ℝ → ℕ) :
    ∃ mu rho, wnFit minimize win [1] none "moments" = .ok (mu, rho) ∧ rho = 1 - 1 / 10 ^ 9 ∧
      ∃ v, v < 0 ∧ distPdf (wrapnorm ndtri f) (1 + π) (mu, rho) = some v := by
  have hpi := pi_gt_three
  have hreg : ∀ x ∈ [(1 : ℝ)], RegularAngle x := by
    intro x hx
    simp only [List.mem_singleton] at hx
    subst hx
    exact ⟨by norm_num, Or.inl (by linarith [show (1 : ℝ) / 10 ^ 14 ≤ 1 by norm_num])⟩
  have hw : fitWeights ([(1 : ℝ)]).length none = .ok [1] := by simp [fitWeights]
  have hmom : moment [(1 : ℝ)] (fullWeights ([(1 : ℝ)]).length none) 1 = Complex.exp (Complex.I) := by
    rw [fitWeights_full hw]
    simp [Verif.Spec.moment, expSum]
  have hnorm : ‖moment [(1 : ℝ)] (fullWeights ([(1 : ℝ)]).length none) 1‖ = 1 := by
    rw [hmom, show Complex.I = ((1 : ℝ) : ℂ) * Complex.I by simp, Complex.norm_exp_ofReal_mul_I]
  have hfit : ∃ mu rho, wnFit minimize win [1] none "moments" = .ok (mu, rho) := by
    refine ⟨wrapDirection (fitStart [1] [1]).1, clip (fitStart [1] [1]).2 (1 / 10 ^ 9) (1 - 1 / 10 ^ 9), ?_⟩
    unfold wnFit
    simp only [map_wrap_regular hreg, hw, bind, Except.bind]
    rw [if_neg (by simp), if_neg (by simp), if_pos (by simp)]
  obtain ⟨mu, rho, hf⟩ := hfit
  obtain ⟨h1, h2, h3⟩ := wnFit_moments minimize win hreg hf
  have hmu : mu = 1 := by
    rw [h1, h3 (by rw [hnorm]; norm_num), hmom]
    have : Complex.arg (Complex.exp Complex.I) = 1 := by
      have := Complex.arg_exp_mul_I 1
      simp only [Complex.ofReal_one, one_mul] at this
      rw [this, toIocMod_eq_self]
      constructor <;> linarith
    rw [this, angmod2pi_eq_self (by norm_num) (by linarith)]
    exact wrap2pi_self (by norm_num) (by linarith [wrapTol_lt, show (1 : ℝ) / 10 ^ 14 ≤ 1 by norm_num])
  refine ⟨mu, rho, hf, ?_, C112_fit_negative ndtri f minimize win [1] hreg none mu rho hf (by rw [hnorm]; norm_num) _
    ⟨by linarith, Or.inl ?_⟩ ?_⟩
  · rw [h2, hnorm]
    unfold clip
    rw [max_eq_left (by norm_num), min_eq_right (by norm_num)]
  · norm_num
    linarith
  · rw [hmu, add_sub_cancel_left, cos_pi]

private def WnNear (obj : ℝ × ℝ → Option ℝ) (r : ℝ) : Prop :=
  (1 / 10 ^ 9 ≤ r ∧ r ≤ 1 - 1 / 10 ^ 9) ∧ ∀ a b u, 0 ≤ a → a ≤ 2 * π → 1 / 10 ^ 9 ≤ b → b ≤ 1 - 1 / 10 ^ 9 →
    obj (a, b) = some u → ∃ v, obj (1, r) = some v ∧ v ≤ u + 1

open Classical in
private noncomputable def wnExampleMin (obj : ℝ × ℝ → Option ℝ) : MinResult 2 :=
  if h : ∃ r, WnNear obj r then ⟨true, ![1, h.choose]⟩ else ⟨false, 0⟩

private lemma wn_peak_le {rho : ℝ} (h0 : 0 < rho) (h1 : rho ≤ 1 - 1 / 10 ^ 9) (mu x : ℝ) :
    wrappedNormal mu √(-2 * log rho) x ≤ 10 ^ 9 := by
  have h1' : rho < 1 := h1.trans_lt (by norm_num)
  rw [wn_series h0 h1']
  have hb := tsum_of_norm_bounded ((hasSum_geometric_of_lt_one h0.le h1').mul_left 2) (f := wnTerm rho (x - mu)) fun n => by
    rw [norm_eq_abs]
    exact (wnTerm_abs h0.le _ n).trans (mul_le_mul_of_nonneg_left (rho_sq_le h0.le h1'.le n) two_pos.le)
  have h2 := (le_abs_self _).trans hb
  have hi : (1 - rho)⁻¹ ≤ 10 ^ 9 := by
    rw [inv_le_comm₀ (by linarith) (by norm_num)]
    norm_num at h1 ⊢
    linarith
  rw [div_le_iff₀ two_pi_pos]
  have := pi_gt_three
  norm_num at hi ⊢
  linarith

/-- C109: for the single observation 1, an optimiser that comes within 1 of the minimum exists, and the fit with it succeeds. -/
example (win : ℝ → ℝ → ℕ) (hwin : ∀ m r, 5 ≤ win m r) : ∃ minimize : (ℝ × ℝ → Option ℝ) → ℝ × ℝ → MinResult 2, ∃ rho,
    wnFit minimize win [1] none "mle" = .ok (1, rho) ∧
    (∀ obj start, (minimize obj start).success →
      (0 ≤ (minimize obj start).x 0 ∧ (minimize obj start).x 0 ≤ 2 * π) ∧
      (1 / 10 ^ 9 ≤ (minimize obj start).x 1 ∧ (minimize obj start).x 1 ≤ 1 - 1 / 10 ^ 9) ∧
      ∀ a b u, 0 ≤ a → a ≤ 2 * π → 1 / 10 ^ 9 ≤ b → b ≤ 1 - 1 / 10 ^ 9 → obj (a, b) = some u →
        ∃ v, obj ((minimize obj start).x 0, (minimize obj start).x 1) = some v ∧ v ≤ u + 1) := by
  have hpi := pi_gt_three
  have hreg : ∀ x ∈ [(1 : ℝ)], RegularAngle x := by
    intro x hx
    simp only [List.mem_singleton] at hx
    subst hx
    exact ⟨by norm_num, Or.inl (by linarith [show (1 : ℝ) / 10 ^ 14 ≤ 1 by norm_num])⟩
  have hw : fitWeights ([(1 : ℝ)]).length none = .ok [1] := by simp [fitWeights]
  have h9 : (0 : ℝ) < 1 / 10 ^ 9 := by positivity
  have h912 : (1 : ℝ) - 1 / 10 ^ 9 ≤ 1 - 1 / 10 ^ 12 := by norm_num
  have hval : ∀ m r, 0 ≤ m → m ≤ 2 * π → 1 / 10 ^ 9 ≤ r → r ≤ 1 - 1 / 10 ^ 9 → ∃ v, wnNll win [1] [1] m r = some v ∧
      |v + log (wrappedNormal m √(-2 * log r) 1)| ≤ 25 / 10 ^ 9 := by
    intro m r m0 m1 r0 r1
    obtain ⟨v, hv, he⟩ := wnNll_error hwin (data := [1]) (w := [1]) rfl hreg (by simp) m0 m1 (h9.trans_le r0) (r1.trans h912)
    refine ⟨v, hv, ?_⟩
    simpa [logLik] using he
  have hnear : ∃ r, WnNear (fun p => wnNll win [1] [1] p.1 p.2) r := by
    obtain ⟨B, hB⟩ : ∃ B : Set ℝ, B = {v | ∃ r, (1 / 10 ^ 9 ≤ r ∧ r ≤ 1 - 1 / 10 ^ 9) ∧ wnNll win [1] [1] 1 r = some v} := ⟨_, rfl⟩
    have hne : B.Nonempty := by
      obtain ⟨v, hv, -⟩ := hval 1 (1 / 2) (by norm_num) (by linarith) (by norm_num) (by norm_num)
      exact ⟨v, by rw [hB]; exact ⟨1 / 2, by norm_num, hv⟩⟩
    have hbdd : BddBelow B := by
      refine ⟨-log (10 ^ 9) - 1, ?_⟩
      rintro v hv
      rw [hB] at hv
      obtain ⟨r, ⟨r0, r1⟩, hv⟩ := hv
      obtain ⟨v', hv', he⟩ := hval 1 r (by norm_num) (by linarith) r0 r1
      rw [hv, Option.some.injEq] at hv'
      subst hv'
      have hle := log_le_log (wn_pos (wn_sigma_pos (h9.trans_le r0) (r1.trans_lt (by norm_num))) 1 1)
        (wn_peak_le (h9.trans_le r0) r1 1 1)
      have := (abs_le.mp he).1
      have h25 : (25 : ℝ) / 10 ^ 9 ≤ 1 := by norm_num
      linarith
    obtain ⟨v, hv, hlt⟩ := Real.lt_sInf_add_pos hne (show (0 : ℝ) < 1 / 2 by norm_num)
    rw [hB] at hv
    obtain ⟨r, hr, hvr⟩ := hv
    refine ⟨r, hr, fun a b u a0 a1 b0 b1 hu => ⟨v, hvr, ?_⟩⟩
    obtain ⟨u', hu', he⟩ := hval a b a0 a1 b0 b1
    have hu2 : wnNll win [1] [1] a b = some u := hu
    rw [hu2, Option.some.injEq] at hu'
    subst hu'
    obtain ⟨c, hc, hce⟩ := hval 1 b (by norm_num) (by linarith) b0 b1
    have hin : sInf B ≤ c := csInf_le hbdd (by rw [hB]; exact ⟨b, ⟨b0, b1⟩, hc⟩)
    have hpk : wrappedNormal a √(-2 * log b) 1 ≤ wrappedNormal 1 √(-2 * log b) 1 := by
      have h3 := wn_le_peak (h9.trans_le b0) (b1.trans_lt (by norm_num)) a 1
      have e : wrappedNormal a √(-2 * log b) a = wrappedNormal 1 √(-2 * log b) 1 := by
        rw [wrappedNormal_def, wrappedNormal_def, sub_self, sub_self]
      rwa [e] at h3
    have hlog := log_le_log (wn_pos (wn_sigma_pos (h9.trans_le b0) (b1.trans_lt (by norm_num))) a 1) hpk
    have a1 := (abs_le.mp he).1
    have a2 := (abs_le.mp hce).2
    have h25 : (25 : ℝ) / 10 ^ 9 ≤ 1 / 8 := by norm_num
    linarith
  have hsucc : wnExampleMin (fun p => wnNll win [1] [1] p.1 p.2) = ⟨true, ![1, hnear.choose]⟩ := by
    unfold wnExampleMin
    rw [dif_pos hnear]
  refine ⟨fun obj _ => wnExampleMin obj, hnear.choose, ?_, ?_⟩
  · unfold wnFit
    simp only [map_wrap_regular hreg, hw, bind, Except.bind]
    rw [if_neg (by simp), if_neg (by simp), if_neg (by simp), hsucc, if_neg (by simp)]
    obtain ⟨⟨c1, c2⟩, -⟩ := hnear.choose_spec
    congr 2
    · exact wrap2pi_self (by norm_num) (by
        show (1 : ℝ) < _
        linarith [wrapTol_lt, show (1 : ℝ) / 10 ^ 14 ≤ 1 by norm_num])
    · unfold clip
      show min (max hnear.choose _) _ = _
      rw [max_eq_left c1, min_eq_left c2]
  · intro obj start hs
    simp only at hs ⊢
    unfold wnExampleMin at hs ⊢
    split_ifs at hs ⊢ with c
    · obtain ⟨c1, c2⟩ := c.choose_spec
      refine ⟨⟨by simp, ?_⟩, c1, c2⟩
      show (1 : ℝ) ≤ 2 * π
      linarith

end Verif
