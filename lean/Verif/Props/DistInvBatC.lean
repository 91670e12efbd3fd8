import Verif.Lemmas.InvBatHistory

/-! # C81 for the inverse Batschelet distribution, whatever was computed before -/

set_option autoImplicit false

namespace Verif

open Real MeasureTheory Spec

/-- **C81.** For `kappa ≤ 340` and after any history of calls, the `cdf` method of the inverse Batschelet distribution is a
number of `[0, 1]` that differs from the integral of the density of a fresh object by at most `5π/128` times the height of
the peak (plus `1e-8`), except that it may be 0 instead of (nearly) 1 at angles whose probability is within that
bound of 1. -/
theorem C81_invbat_cdf (solve : (ℝ → ℝ) → Option ℝ) (hs : FindsRoots solve) (guess : ℝ → ℝ) (calls : List InvBatCall)
    (xi kappa nu lmbd : ℝ) (h : InvBatRegular xi kappa nu lmbd) (hk : kappa ≤ 340)
    (hcalls : ∀ call ∈ calls, match call with
      | .pdf _ _ => True
      | .clear => True
      | .cdf _ s => s.nu = 0 ∨ 1 / 10 ^ 12 < |s.nu|
      | .ppf _ s => s.nu = 0 ∨ 1 / 10 ^ 12 < |s.nu|
      | .table _ n _ => |n| ≤ 1 ∧ (n = 0 ∨ 1 / 10 ^ 12 < |n|)) :
    ∃ (f : ℝ → ℝ) (p : ℝ), Continuous f ∧ (∀ x, f x ≤ p) ∧ (∃ x, f x = p) ∧
      (∀ x, RegularAngle x → (invbatPdfMethod solve .empty x ⟨xi, kappa, nu, lmbd⟩).1 = some (f x)) ∧
      ∀ x, RegularAngle x → ∃ F, 0 ≤ F ∧ F ≤ 1 ∧
        (invbatCdfMethod solve (invbatHistory solve guess calls) x ⟨xi, kappa, nu, lmbd⟩).1 = some F ∧
        (|F - ∫ t in (0 : ℝ)..x, f t| ≤ 5 * π / 128 * p + 1 / 10 ^ 8 ∨
          F = 0 ∧ 1 - (5 * π / 128 * p + 1 / 10 ^ 8) ≤ ∫ t in (0 : ℝ)..x, f t) := by
  obtain ⟨⟨x0, x1⟩, ⟨k0, k1⟩, n0, n1, l0, l1, l2⟩ := h
  have hk0 : 0 ≤ kappa := le_trans (by positivity) k0.le
  obtain ⟨c0, hc0, hp, hacc⟩ := invbatC_spec k0 k1 l0 l1 l2
  obtain ⟨m0, m1⟩ := invbat_exp_bounds hk0 l0
  have hM := invbatMass_pos hk0 l0
  have hNs : 512 ≤ invbatGridSize kappa nu lmbd := (tabSize_spec _).1
  have htab := invbat_history_table hs guess (calls := calls) (fun call hm => by
    have := hcalls call hm
    cases call <;> exact this) ⟨⟨x0, x1⟩, ⟨k0, k1⟩, n0, n1, l0, l1, l2⟩ hk
  obtain ⟨a, ha, hfa, hmass⟩ := htab
  rw [← tabTrap_mul, ← hfa] at hmass
  have hcont := invbatG_continuous kappa n0 l0
  have hper := invbatG_periodic kappa n0 l0
  have hmassI := invbatG_integral kappa n0 l0
  refine ⟨fun x => c0 * invbatG kappa nu lmbd (x - xi), c0 * exp kappa, ?_, fun x => ?_, ?_, fun x hx => ?_, fun x hx => ?_⟩
  · exact continuous_const.mul (hcont.comp (by fun_prop))
  · exact mul_le_mul_of_nonneg_left (invbatG_le hk0 _ _ _) hp.le
  · refine ⟨xi + -2 * nu, ?_⟩
    have e : invbatU nu lmbd (-2 * nu) = 0 := by
      refine (invbatAngle_strictMono n0 l0).injective ?_
      rw [invbatAngle_U n0 l0]
      unfold invbatAngle
      simp only [sin_zero, mul_zero, sub_zero, cos_zero]; ring
    show c0 * _ = _
    rw [add_sub_cancel_left]
    unfold invbatG invbatShape
    rw [e]; simp
  · have := invbatPdfMethod_eq hs .empty x0 x1 k0 k1 n0 n1 l0 l1 hp ((invbatCached_empty kappa lmbd).trans hc0) x
    rw [this, regular_wrap hx]
  · generalize hfd : (invbatTable solve (invbatHistory solve guess calls) kappa nu lmbd).1 = f at hfa hmass
    have hcl := invbat_clip hk0 k1
    have harg : invbatArgcheck { ({ xi := xi, kappa := kappa, nu := nu, lmbd := lmbd } : InvBat) with kappa := clip kappa 0 invbatUpper } := by
      rw [hcl]
      exact ⟨x0, x1, hk0, (abs_le.1 n0).1, (abs_le.1 n0).2, (abs_le.1 l0).1, (abs_le.1 l0).2⟩
    have hF : (invbatCdfMethod solve (invbatHistory solve guess calls) x ⟨xi, kappa, nu, lmbd⟩).1
        = some (tabCdf (invbatGridSize kappa nu lmbd) f xi x) := by
      unfold invbatCdfMethod invbatCdfScipy
      rw [if_neg (not_not.2 harg), regular_wrap hx]
      split_ifs with c1 c2
      · have : x = 2 * π := le_antisymm (regular_le hx) c1
        rw [this]
        unfold tabCdf
        simp only
        rw [if_pos]
        unfold isclose
        rw [sub_self, abs_zero]
        positivity
      · unfold invbatCdf
        simp only [hcl, regular_wrap hx]
        rw [if_neg (by unfold invbatTol; linarith), hfd]
      · have : x = 0 := le_antisymm (not_lt.1 c2) hx.1
        rw [this, tabCdf_zero]
    refine ⟨_, (tabCdf_mem _ _ _ _).1, (tabCdf_mem _ _ _ _).2, hF, ?_⟩
    generalize invbatGridSize kappa nu lmbd = N at hNs hfa hmass
    have hN : 0 < N := by omega
    obtain ⟨mass, hmassd⟩ : ∃ m, m = invbatMass kappa lmbd := ⟨_, rfl⟩
    rw [← hmassd] at hM hacc hmassI
    obtain ⟨w, hw⟩ : ∃ w, w = 2 * π / N * (exp kappa / mass) := ⟨_, rfl⟩
    -- the normalised kernel
    obtain ⟨g, hg⟩ : ∃ g : ℝ → ℝ, g = fun t => invbatG kappa nu lmbd t / mass := ⟨_, rfl⟩
    have hgc : Continuous g := by rw [hg]; exact hcont.div_const _
    have hgp : Function.Periodic g (2 * π) := fun t => by rw [hg]; simp only; rw [hper t]
    have hg0 : ∀ t, 0 ≤ g t := fun t => by rw [hg]; have := invbatG_pos kappa nu lmbd t; positivity
    have hgM : ∀ t, g t ≤ exp kappa / mass := fun t => by
      rw [hg]; exact div_le_div_of_nonneg_right (invbatG_le hk0 _ _ _) hM.le
    have hg1 : ∫ t in (-π)..π, g t = 1 := by
      rw [hg, intervalIntegral.integral_div, hmassI, div_self hM.ne']
    have hgi : ∀ u v, IntervalIntegrable g volume u v := fun u v => hgc.intervalIntegrable u v
    have hw0 : 0 ≤ w := by rw [hw]; positivity
    -- nodes
    obtain ⟨u1, u2⟩ := invbatG_unimodal (kappa := kappa) hk0 n0 l0
    have hn' := abs_le.1 n0
    obtain ⟨T, hT⟩ : ∃ T : ℕ → ℝ, T = tabTrap N (fun j => invbatG kappa nu lmbd (tabGrid N j)) := ⟨_, rfl⟩
    have hTk : ∀ k, k ≤ N → |T k / mass - ∫ t in (-π)..(tabGrid N k), g t| ≤ 2 * w := fun k hk' => by
      have := tabTrap_unimodal hcont (fun t => (invbatG_pos kappa nu lmbd t).le) u1 u2 (by linarith [pi_gt_three])
        (invbatG_le hk0 nu lmbd) hN hk'
      rw [← hT] at this
      have e : T k / mass - ∫ t in (-π)..(tabGrid N k), g t = (T k - ∫ t in (-π)..(tabGrid N k), invbatG kappa nu lmbd t) / mass := by
        rw [hg, intervalIntegral.integral_div, sub_div]
      rw [e, abs_div, abs_of_pos hM, div_le_iff₀ hM]
      refine this.trans (le_of_eq ?_)
      rw [hw]; field_simp
    have hTmono : ∀ k, k ≤ N → 0 ≤ T k ∧ T k ≤ T N := fun k hk' => by
      rw [hT]
      refine ⟨?_, tabTrap_mono' (fun j => (invbatG_pos _ _ _ _).le) hk'⟩
      have := tabTrap_mono' (N := N) (f := fun j => invbatG kappa nu lmbd (tabGrid N j)) (fun j => (invbatG_pos _ _ _ _).le) (Nat.zero_le k)
      rwa [tabTrap_zero] at this
    have hTN : 0 < T N := by
      rw [hT]; exact lt_of_lt_of_le (by positivity) (invbat_trap_bounds hk0 nu lmbd hN).1
    have hfT : ∀ k, tabTrap N f k = a * T k := fun k => by rw [hfa, tabTrap_mul, hT]
    have hf0 : ∀ j, 0 ≤ f j := fun j => by rw [hfa]; have := invbatG_pos kappa nu lmbd (tabGrid N j); positivity
    rw [hfT N] at hmass
    have hnode : ∀ k, k ≤ N → |tabCumul N f k - ∫ t in (-π)..(tabGrid N k), g t| ≤ 4 * w + 1 / 10 ^ 9 := fun k hk' => by
      have q1 := tabCumul_close (e := 5 / 10 ^ 10) hf0 (by rw [hfT N]; exact hmass) hk'
      rw [hfT k] at q1
      have q2 := hTk k hk'
      have q3 := hTk N le_rfl
      rw [tabGrid_last hN, hg1] at q3
      obtain ⟨t0, t1⟩ := hTmono k hk'
      obtain ⟨r, hr⟩ : ∃ r, r = T k / T N := ⟨_, rfl⟩
      have hr0 : 0 ≤ r := by rw [hr]; positivity
      have hr1 : r ≤ 1 := by rw [hr]; exact (div_le_one hTN).2 t1
      have hTr : T k = r * T N := by rw [hr]; field_simp
      have q4 : |a * T k - r| ≤ 5 / 10 ^ 10 := by
        rw [hTr, show a * (r * T N) - r = r * (a * T N - 1) by ring, abs_mul, abs_of_nonneg hr0]
        exact (mul_le_mul hr1 hmass (abs_nonneg _) zero_le_one).trans (le_of_eq (one_mul _))
      have q5 : |r - T k / mass| ≤ 2 * w := by
        rw [hTr, show r - r * T N / mass = r * (1 - T N / mass) by ring, abs_mul, abs_of_nonneg hr0, abs_sub_comm]
        exact (mul_le_mul hr1 q3 (abs_nonneg _) zero_le_one).trans (le_of_eq (one_mul _))
      have : (5 : ℝ) / 10 ^ 10 + 5 / 10 ^ 10 = 1 / 10 ^ 9 := by norm_num
      rw [abs_le] at q1 q2 q4 q5 ⊢
      constructor <;> linarith
    have hD : ∀ s t, -π ≤ s → s ≤ t → t ≤ π → ∫ u in (-π)..s, g u ≤ ∫ u in (-π)..t, g u := fun s t _ hst _ => by
      rw [← sub_nonneg, intervalIntegral.integral_interval_sub_left (hgi _ _) (hgi _ _)]
      exact intervalIntegral.integral_nonneg hst fun u _ => hg0 u
    have hcell : ∀ k, k < N → (∫ u in (-π)..(tabGrid N (k + 1)), g u) - ∫ u in (-π)..(tabGrid N k), g u ≤ w := fun k _ => by
      rw [intervalIntegral.integral_interval_sub_left (hgi _ _) (hgi _ _)]
      have hst := tabGrid_step N k
      have hpos : 0 ≤ 2 * π / N := by positivity
      have := intervalIntegral.integral_mono_on (μ := volume) (by linarith : tabGrid N k ≤ tabGrid N (k + 1)) (hgi _ _)
        ((continuous_const (y := exp kappa / mass)).intervalIntegrable _ _) fun t _ => hgM t
      rw [intervalIntegral.integral_const, smul_eq_mul, hst, ← hw] at this
      exact this
    have hE : ∀ phi, -π ≤ phi → phi ≤ π → |tabH N f phi - ∫ t in (-π)..phi, g t| ≤ 5 * w + 1 / 10 ^ 9 := fun phi h0 h1 =>
      (tabH_close hN f (D := fun phi => ∫ t in (-π)..phi, g t) hD hnode hcell h0 h1).trans (by linarith)
    -- from the normalised kernel to the density of the fresh object
    have hfg : ∫ t in (0 : ℝ)..x, c0 * invbatG kappa nu lmbd (t - xi) = c0 * mass * ∫ t in (0 : ℝ)..x, g (t - xi) := by
      rw [← intervalIntegral.integral_const_mul]
      congr 1
      funext t
      rw [hg]; field_simp
    have hxle := regular_le hx
    have hshift : ∫ t in (0 : ℝ)..(2 * π), g (t - xi) = 1 := by
      rw [intervalIntegral.integral_comp_sub_right, ← hg1]
      have := hgp.intervalIntegral_add_eq (0 - xi) (-π)
      rw [show -π + 2 * π = π by ring] at this
      rw [← this]
      congr 1
      ring
    have hgsi : ∀ u v, IntervalIntegrable (fun t => g (t - xi)) volume u v := fun u v =>
      (hgc.comp (by fun_prop : Continuous fun t : ℝ => t - xi)).intervalIntegrable u v
    obtain ⟨I, hI⟩ : ∃ I, I = ∫ t in (0 : ℝ)..x, g (t - xi) := ⟨_, rfl⟩
    have hsplit := intervalIntegral.integral_add_adjacent_intervals (hgsi 0 x) (hgsi x (2 * π))
    rw [hshift, ← hI] at hsplit
    have hrest0 : 0 ≤ ∫ t in x..(2 * π), g (t - xi) := intervalIntegral.integral_nonneg hxle fun u _ => hg0 _
    have hI0 : 0 ≤ I := by rw [hI]; exact intervalIntegral.integral_nonneg hx.1 fun u _ => hg0 _
    have hI1 : I ≤ 1 := by linarith
    have hdiff : |c0 * mass * I - I| ≤ 1 / 10 ^ 11 := by
      rw [show c0 * mass * I - I = (c0 * mass - 1) * I by ring, abs_mul, abs_of_nonneg hI0]
      exact (mul_le_mul hacc hI1 hI0 (by positivity)).trans (le_of_eq (mul_one _))
    have hpk : exp kappa / mass ≤ c0 * exp kappa * (1 + 2 / 10 ^ 11) := by
      rw [div_le_iff₀ hM]
      have h3 := (abs_le.1 hacc).1
      have h4 : 1 ≤ c0 * mass * (1 + 2 / 10 ^ 11) := by
        have : (1 - 1 / 10 ^ 11 : ℝ) * (1 + 2 / 10 ^ 11) ≤ c0 * mass * (1 + 2 / 10 ^ 11) :=
          mul_le_mul_of_nonneg_right (by linarith) (by positivity)
        refine le_trans ?_ this
        norm_num
      have := mul_le_mul_of_nonneg_left h4 (exp_pos kappa).le
      calc exp kappa ≤ exp kappa * (c0 * mass * (1 + 2 / 10 ^ 11)) := by linarith
        _ = _ := by ring
    have hwb : 10 * w ≤ 5 * π / 128 * (c0 * exp kappa) * (1 + 2 / 10 ^ 11) := by
      have hNR : (512 : ℝ) ≤ N := by exact_mod_cast hNs
      have h1 : 2 * π / N ≤ 2 * π / 512 := by gcongr
      have h5 : w ≤ 2 * π / 512 * (c0 * exp kappa * (1 + 2 / 10 ^ 11)) := by
        rw [hw]; exact mul_le_mul h1 hpk (by positivity) (by positivity)
      calc 10 * w ≤ 10 * (2 * π / 512 * (c0 * exp kappa * (1 + 2 / 10 ^ 11))) := by linarith
        _ = _ := by ring
    show |_ - ∫ t in (0 : ℝ)..x, c0 * invbatG kappa nu lmbd (t - xi)| ≤ _ ∨ _ ∧ _ ≤ ∫ t in (0 : ℝ)..x, c0 * invbatG kappa nu lmbd (t - xi)
    rw [hfg, ← hI]
    obtain ⟨p, hpd⟩ : ∃ p, p = c0 * exp kappa := ⟨_, rfl⟩
    rw [← hpd] at hwb hpk ⊢
    have hp0 : 0 < p := by rw [hpd]; positivity
    have hd := abs_le.1 hdiff
    have e11 : (1 : ℝ) / 10 ^ 11 + 2 / 10 ^ 11 + 2 / 10 ^ 9 ≤ 1 / 10 ^ 8 := by norm_num
    have e12 : (0 : ℝ) < 1 / 10 ^ 11 := by positivity
    have e13 : (0 : ℝ) < 2 / 10 ^ 9 := by positivity
    have e14 : (2 : ℝ) / 10 ^ 11 = 2 * (1 / 10 ^ 11) := by ring
    have e15 : (2 : ℝ) / 10 ^ 9 = 2 * (1 / 10 ^ 9) := by ring
    rcases le_total 1 (5 * π / 128 * p) with hQ | hQ
    · left
      obtain ⟨f0, f1⟩ := tabCdf_mem N f xi x
      rw [abs_le]
      constructor <;> linarith
    · have hwb' : 10 * w ≤ 5 * π / 128 * p + 2 / 10 ^ 11 := by
        have h6 : 5 * π / 128 * p * (2 / 10 ^ 11) ≤ 1 * (2 / 10 ^ 11) := mul_le_mul_of_nonneg_right hQ (by positivity)
        linarith
      rcases lt_or_ge x (2 * π - 1 / 10 ^ 12) with hx3 | hx3
      · rcases tabCdf_close hgc hgp hg0 hg1 hN hE xi hx.1 hx3 with q | ⟨q1, q2⟩
        · left
          rw [← hI, abs_le] at q
          rw [abs_le]
          constructor <;> linarith
        · right
          rw [← hI] at q2
          exact ⟨q1, by linarith⟩
      · left
        have hone : tabCdf N f xi x = 1 := by
          unfold tabCdf
          simp only
          rw [if_pos]
          unfold isclose
          rw [abs_le]
          constructor <;> linarith
        have hp9 : p ≤ 9 := by
          have := pi_gt_three
          by_contra hcon
          push Not at hcon
          have h7 : 5 * 3 / 128 * 9 < 5 * π / 128 * p := mul_lt_mul'' (by linarith) hcon (by norm_num) (by norm_num)
          norm_num at h7
          linarith
        have hrest := intervalIntegral.integral_mono_on (μ := volume) hxle (hgsi x (2 * π))
          ((continuous_const (y := exp kappa / mass)).intervalIntegrable _ _) fun t _ => hgM (t - xi)
        rw [intervalIntegral.integral_const, smul_eq_mul] at hrest
        have hpk2 : exp kappa / mass ≤ 10 := hpk.trans (by
          have : p * (1 + 2 / 10 ^ 11) ≤ 9 * (1 + 2 / 10 ^ 11) := mul_le_mul_of_nonneg_right hp9 (by positivity)
          refine this.trans ?_
          norm_num)
        have h8 : (2 * π - x) * (exp kappa / mass) ≤ 1 / 10 ^ 12 * 10 :=
          mul_le_mul (by linarith) hpk2 (by positivity) (by positivity)
        have h9 : (1 : ℝ) / 10 ^ 12 * 10 = 1 / 10 ^ 11 := by norm_num
        have h10 : 0 ≤ 5 * π / 128 * p := by positivity
        rw [hone, abs_le]
        constructor <;> linarith

/-- C81 says something: for `kappa = 1/10, lmbd = -1` the peak is at most `exp(1/5)/(2π) < 1/5`, so that the bound is
below `1/20`, and the history below tabulates another `lmbd` first. -/
example (solve : (ℝ → ℝ) → Option ℝ) (hs : FindsRoots solve) : ∃ F,
    (invbatCdfMethod solve (invbatHistory solve id [.cdf 1 ⟨1, 1 / 10, 0, 1⟩]) 1 ⟨1, 1 / 10, 0, -1⟩).1 = some F ∧ 0 ≤ F ∧ F ≤ 1 := by
  obtain ⟨f, p, -, -, -, -, h⟩ := C81_invbat_cdf solve hs id [.cdf 1 ⟨1, 1 / 10, 0, 1⟩] 1 (1 / 10) 0 (-1)
    ⟨⟨by norm_num, by linarith [pi_gt_three]⟩, ⟨by norm_num, by norm_num⟩, by norm_num, Or.inl rfl, by norm_num, Or.inl rfl,
      Or.inr (by norm_num)⟩ (by norm_num) (by simp)
  obtain ⟨F, h0, h1, hF, -⟩ := h 1 ⟨by norm_num, Or.inl (by have := wrapTol_lt; linarith [pi_gt_three])⟩
  exact ⟨F, hF, h0, h1⟩

end Verif
