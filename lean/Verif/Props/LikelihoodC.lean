import Verif.Props.LikelihoodB

/-! # Property C109 for the flat-topped von Mises and Kato-Jones families, C83 for the flat-topped family -/

set_option autoImplicit false

namespace Verif

open Real Verif.Spec

/-! ## Flat-topped von Mises -/

/-- The parameters over which the flat-topped likelihood is maximised. -/
def vmftBox (kb nb : ℝ × ℝ) : Set VMFT :=
  {t | (0 ≤ t.mu ∧ t.mu < 2 * π) ∧ (kb.1 ≤ t.kappa ∧ t.kappa ≤ kb.2) ∧ (nb.1 ≤ t.nu ∧ t.nu ≤ nb.2)}

private lemma vmft_value (guess : ℝ → ℝ) {t : VMFT} (hm0 : 0 ≤ t.mu) (hm1 : t.mu ≤ 2 * π) (hk0 : 0 ≤ t.kappa) (hk1 : t.kappa ≤ 1000)
    (hn : |t.nu| ≤ 1) {x : ℝ} (hx : RegularAngle x) : vmftPdfMethod guess x t = some (vmftPdf x t) := by
  unfold vmftPdfMethod
  rw [vmft_kappa_clip hk0 hk1, distPdf_regular _ (vmft_arg guess (mu := t.mu) hm0 hm1 hk0 hk1 hn) hx]
  rfl

private lemma vmftPdf_pos (x : ℝ) (t : VMFT) : 0 < vmftPdf x t := by
  unfold vmftPdf
  simp only
  split_ifs
  · positivity
  · exact exp_pos _

private lemma vmft_positive (guess : ℝ → ℝ) {t : VMFT} (hm0 : 0 ≤ t.mu) (hm1 : t.mu ≤ 2 * π) (hk0 : 0 ≤ t.kappa) (hk1 : t.kappa ≤ 1000)
    (hn : |t.nu| ≤ 1) {data : List ℝ} (hdata : ∀ x ∈ data, RegularAngle x) : PositiveOn (fun y => vmftPdfMethod guess y t) data :=
  fun y hy => ⟨_, vmft_value guess hm0 hm1 hk0 hk1 hn (hdata y hy), vmftPdf_pos y t⟩

private lemma vmftNll_eq (guess : ℝ → ℝ) {kb nb : ℝ × ℝ} {data w : List ℝ} (hlen : w.length = data.length)
    (hdata : ∀ x ∈ data, RegularAngle x) {t : VMFT} (hm0 : 0 ≤ t.mu) (hm1 : t.mu < 2 * π) (hk0 : 0 ≤ kb.1) (hk1 : kb.2 ≤ 1000)
    (hn0 : -1 ≤ nb.1) (hn1 : nb.2 ≤ 1) (hk : kb.1 ≤ t.kappa ∧ t.kappa ≤ kb.2) (hn : nb.1 ≤ t.nu ∧ t.nu ≤ nb.2) :
    vmftNll kb nb data w t = some (-logLik (fun y => vmftPdfMethod guess y t) data w) := by
  have hk0' : 0 ≤ t.kappa := hk0.trans hk.1
  have hk1' : t.kappa ≤ 1000 := hk.2.trans hk1
  have hn' : |t.nu| ≤ 1 := abs_le.2 ⟨hn0.trans hn.1, hn.2.trans hn1⟩
  unfold vmftNll logLik
  rw [if_neg (not_not.2 ⟨hm0, hm1.le⟩), if_neg (not_not.2 hk), if_neg (not_not.2 hn)]
  have hval : ∀ y ∈ data, log ((vmftPdfMethod guess y t).getD 0) = log (vmftPdf y t) := fun y hy => by
    rw [vmft_value guess hm0 hm1.le hk0' hk1' hn' (hdata y hy)]; rfl
  by_cases hc : t.kappa ≤ vmftKappaTol
  · rw [if_pos hc]
    congr 3
    refine List.ext_getElem (by simp [hlen]) fun i h1 h2 => ?_
    simp only [List.getElem_zipWith, List.getElem_map]
    rw [hval _ (List.getElem_mem _)]
    unfold vmftPdf
    simp only [vmft_kappa_clip hk0' hk1']
    rw [if_pos hc, one_div, log_inv]
  · rw [if_neg hc, pymod_eq_self two_pi_pos hm0 hm1]
    congr 3
    refine List.ext_getElem (by simp [hlen]) fun i h1 h2 => ?_
    simp only [List.getElem_zipWith]
    rw [hval _ (List.getElem_mem _)]
    unfold vmftPdf
    simp only [vmft_kappa_clip hk0' hk1']
    rw [if_neg hc, log_exp]

private lemma vmftNll_some {kb nb : ℝ × ℝ} {x w : List ℝ} {t : VMFT} {v : ℝ} (h : vmftNll kb nb x w t = some v) :
    (0 ≤ t.mu ∧ t.mu ≤ 2 * π) ∧ (kb.1 ≤ t.kappa ∧ t.kappa ≤ kb.2) ∧ (nb.1 ≤ t.nu ∧ t.nu ≤ nb.2) := by
  unfold vmftNll at h
  split_ifs at h <;> tauto

/-- The result of the optimisation: the named optimiser's, or, if that failed and another one can be tried,
the fallback's. -/
private lemma vmftFit_mle {minimize : String → (VMFT → Option ℝ) → VMFT → MinResult 3} {rnd : ℝ → ℤ} {data : List ℝ}
    (hdata : ∀ x ∈ data, RegularAngle x) {weights : Option (List ℝ)} {optimizer : String} {nuGrid : Option (List ℝ)}
    {kb nb : ℝ × ℝ} {s : VMFT} (h : vmftFit minimize rnd data weights "mle" optimizer nuGrid kb nb = .ok s) :
    ∃ w, fitWeights data.length weights = .ok w ∧ ∃ name r,
      r = minimize name (vmftNll kb nb data w) ⟨(fitMomentStart rnd data w kb).1, (fitMomentStart rnd data w kb).2,
        vmftNuInit (vmftNll kb nb data w) (nuGrid.getD (vmftNuGrid nb)) (fitMomentStart rnd data w kb).1 (fitMomentStart rnd data w kb).2⟩ ∧
      r.success = true ∧ s = ⟨wrapDirection (r.x 0), clip (r.x 1) kb.1 kb.2, clip (r.x 2) nb.1 nb.2⟩ := by
  rcases hw : fitWeights data.length weights with e | w
  · unfold vmftFit at h
    simp only [map_wrap_regular hdata, hw, bind, Except.bind] at h
    split_ifs at h
  refine ⟨w, rfl, ?_⟩
  unfold vmftFit at h
  simp only [map_wrap_regular hdata, hw, bind, Except.bind] at h
  by_cases h0 : data.length = 0
  · rw [if_pos h0] at h; cases h
  rw [if_neg h0, if_neg (by simp), if_neg (by simp)] at h
  obtain ⟨st, hst⟩ : ∃ st : VMFT, st = ⟨(fitMomentStart rnd data w kb).1, (fitMomentStart rnd data w kb).2,
    vmftNuInit (vmftNll kb nb data w) (nuGrid.getD (vmftNuGrid nb)) (fitMomentStart rnd data w kb).1 (fitMomentStart rnd data w kb).2⟩ :=
    ⟨_, rfl⟩
  rw [← hst]
  unfold fitMomentStart at hst
  simp only at hst
  rw [← hst] at h
  by_cases c1 : (minimize optimizer (vmftNll kb nb data w) st).success = false ∧ optimizer ≠ "Powell"
  · rw [if_pos c1] at h
    by_cases c2 : (minimize "Powell" (vmftNll kb nb data w) st).success = true
    · rw [if_pos c2, if_neg (by simp [c2])] at h
      exact ⟨"Powell", _, rfl, c2, (Except.ok.inj h).symm⟩
    · rw [if_neg c2, if_pos c1.1] at h
      cases h
  · rw [if_neg c1] at h
    by_cases c2 : (minimize optimizer (vmftNll kb nb data w) st).success = false
    · rw [if_pos c2] at h
      cases h
    · rw [if_neg c2] at h
      exact ⟨optimizer, _, rfl, by simpa using c2, (Except.ok.inj h).symm⟩

/-- **C83.** Estimates of the flat-topped family are accepted by its own methods, whatever the optimiser does. -/
theorem C83_flat (guess : ℝ → ℝ) (minimize : String → (VMFT → Option ℝ) → VMFT → MinResult 3) (rnd : ℝ → ℤ) (data : List ℝ)
    (hdata : ∀ x ∈ data, RegularAngle x) (weights : Option (List ℝ)) (method optimizer : String) (nuGrid : Option (List ℝ)) (kb nb : ℝ × ℝ) (hk0 : 0 ≤ kb.1)
    (hkb : kb.1 ≤ kb.2) (hk1 : kb.2 ≤ 1000) (hn0 : -1 ≤ nb.1) (hnb : nb.1 ≤ nb.2) (hn1 : nb.2 ≤ 1) (s : VMFT)
    (h : vmftFit minimize rnd data weights method optimizer nuGrid kb nb = .ok s) :
    (0 ≤ s.mu ∧ s.mu ≤ 2 * π) ∧ (kb.1 ≤ s.kappa ∧ s.kappa ≤ kb.2) ∧ ((nb.1 ≤ s.nu ∧ s.nu ≤ nb.2) ∨ s.nu = 0) ∧
      ∀ x, RegularAngle x → (∃ p, vmftPdfMethod guess x s = some p ∧ 0 < p) ∧ ∃ c, vmftCdfMethod guess x s = some c := by
  have key : (0 ≤ s.mu ∧ s.mu ≤ 2 * π) ∧ (kb.1 ≤ s.kappa ∧ s.kappa ≤ kb.2) ∧ ((nb.1 ≤ s.nu ∧ s.nu ≤ nb.2) ∨ s.nu = 0) := by
    by_cases hm : method = "mle"
    · subst hm
      obtain ⟨w, -, name, r, -, -, rfl⟩ := vmftFit_mle hdata h
      exact ⟨wrap2pi_mem _, clip_mem hkb, Or.inl (clip_mem hnb)⟩
    · unfold vmftFit at h
      simp only [map_wrap_regular hdata, bind, Except.bind] at h
      rcases hw : fitWeights data.length weights with e | w
      · rw [hw] at h
        split_ifs at h
      · rw [hw] at h
        simp only at h
        split_ifs at h with a b
        cases h
        obtain ⟨m1, m2⟩ := fitStart_range data w
        exact ⟨⟨m1, m2.le⟩, clip_mem hkb, Or.inr rfl⟩
  obtain ⟨h1, h2, h3⟩ := key
  have hn : |s.nu| ≤ 1 := by
    rcases h3 with h3 | h3
    · exact abs_le.2 ⟨hn0.trans h3.1, h3.2.trans hn1⟩
    · rw [h3]; norm_num
  refine ⟨h1, h2, h3, fun x hx => ?_⟩
  have ha := vmft_arg guess (mu := s.mu) (kappa := s.kappa) (nu := s.nu) h1.1 h1.2 (hk0.trans h2.1) (h2.2.trans hk1) hn
  refine ⟨⟨_, vmft_value guess h1.1 h1.2 (hk0.trans h2.1) (h2.2.trans hk1) hn hx, vmftPdf_pos x s⟩, ?_⟩
  unfold vmftCdfMethod distCdf
  rw [if_neg (not_not.2 ha)]
  split_ifs
  exacts [⟨_, rfl⟩, ⟨_, rfl⟩, ⟨_, rfl⟩]

/-- **C109.** Flat-topped von Mises: if a successful optimiser (the named one, or the fallback) returns a minimum
of its objective, the estimate maximises the weighted likelihood of `pdf` within the bounds. -/
theorem C109_flat (guess : ℝ → ℝ) (minimize : String → (VMFT → Option ℝ) → VMFT → MinResult 3) (rnd : ℝ → ℤ)
    (hopt : ∀ name obj start, (minimize name obj start).success = true →
      IsMinimum obj ⟨(minimize name obj start).x 0, (minimize name obj start).x 1, (minimize name obj start).x 2⟩)
    (data : List ℝ) (hdata : ∀ x ∈ data, RegularAngle x) (weights : Option (List ℝ)) (optimizer : String) (nuGrid : Option (List ℝ))
    (kb nb : ℝ × ℝ) (hk0 : 0 ≤ kb.1) (hk1 : kb.2 ≤ 1000) (hn0 : -1 ≤ nb.1) (hn1 : nb.2 ≤ 1) (s : VMFT)
    (h : vmftFit minimize rnd data weights "mle" optimizer nuGrid kb nb = .ok s) (hs : s.mu ≠ 2 * π) :
    MaximisesLikelihood (fun y t => vmftPdfMethod guess y t) (vmftBox kb nb) data (fullWeights data.length weights) s := by
  obtain ⟨w, hw, name, r, hr, hsu, rfl⟩ := vmftFit_mle hdata h
  rw [fitWeights_full hw]
  obtain ⟨hlen, -, -⟩ := fitWeights_ok hw
  obtain ⟨v, hv, hmin⟩ := hopt name _ _ (by rw [← hr]; exact hsu)
  rw [← hr] at hv
  obtain ⟨h0, h1, h2⟩ := vmftNll_some hv
  simp only at h0 h1 h2
  have hw1 : wrapDirection (r.x 0) = pymod (r.x 0) (2 * π) := far_of_ne hs
  have hlt : r.x 0 < 2 * π := by
    rcases h0.2.lt_or_eq with h | h
    · exact h
    · exfalso
      refine hs (wrap2pi_close ?_)
      rw [h, sub_self, abs_zero]
      exact wrapTol_pos.le
  rw [pymod_eq_self two_pi_pos h0.1 hlt] at hw1
  have hest : (⟨wrapDirection (r.x 0), clip (r.x 1) kb.1 kb.2, clip (r.x 2) nb.1 nb.2⟩ : VMFT) = ⟨r.x 0, r.x 1, r.x 2⟩ := by
    rw [hw1]
    unfold clip
    rw [max_eq_left h1.1, min_eq_left h1.2, max_eq_left h2.1, min_eq_left h2.2]
  rw [hest]
  refine ⟨⟨⟨h0.1, hlt⟩, h1, h2⟩, vmft_positive guess h0.1 h0.2 (hk0.trans h1.1) (h1.2.trans hk1)
    (abs_le.2 ⟨hn0.trans h2.1, h2.2.trans hn1⟩) hdata, fun t ht _ => ?_⟩
  obtain ⟨a, b, c⟩ := ht
  have e1 := hmin t _ (vmftNll_eq guess hlen hdata a.1 a.2 hk0 hk1 hn0 hn1 b c)
  rw [vmftNll_eq guess hlen hdata (t := ⟨r.x 0, r.x 1, r.x 2⟩) h0.1 hlt hk0 hk1 hn0 hn1 h1 h2] at hv
  have := Option.some.inj hv
  show logLik (fun y => vmftPdfMethod guess y t) data w ≤ logLik (fun y => vmftPdfMethod guess y _) data w
  linarith

/-- **C109.** When the named optimiser and the fallback report failure, the fit raises RuntimeError. -/
theorem C109_flat_failure (minimize : String → (VMFT → Option ℝ) → VMFT → MinResult 3) (rnd : ℝ → ℤ)
    (hopt : ∀ name obj start, (minimize name obj start).success = false) (data : List ℝ) (hne : data ≠ []) (weights : Option (List ℝ))
    (w : List ℝ) (hw : fitWeights data.length weights = .ok w) (optimizer : String) (nuGrid : Option (List ℝ)) (kb nb : ℝ × ℝ) :
    vmftFit minimize rnd data weights "mle" optimizer nuGrid kb nb = .error .runtimeError := by
  unfold vmftFit
  simp only [List.length_map, hw, bind, Except.bind]
  rw [if_neg (by simpa using hne)]
  simp [hopt]

/-- **C109.** Flat-topped von Mises: if the optimisers never end at a point worse than the start, the maximum
likelihood estimate is at least as likely as the moment estimate, with `nu` zero or any candidate of the grid. -/
theorem C109_flat_improves (guess : ℝ → ℝ) (minimize : String → (VMFT → Option ℝ) → VMFT → MinResult 3) (rnd : ℝ → ℤ)
    (hopt : ∀ name obj start, (minimize name obj start).success = true →
      NotWorse obj start ⟨(minimize name obj start).x 0, (minimize name obj start).x 1, (minimize name obj start).x 2⟩)
    (data : List ℝ) (hdata : ∀ x ∈ data, RegularAngle x) (weights : Option (List ℝ)) (optimizer : String) (grid : List ℝ)
    (kb nb : ℝ × ℝ) (hk0 : 0 ≤ kb.1) (hkb : kb.1 ≤ kb.2) (hk1 : kb.2 ≤ 1000) (hn0 : -1 ≤ nb.1) (hn1 : nb.2 ≤ 1) (s0 s : VMFT)
    (h0 : vmftFit minimize rnd data weights "moments" optimizer (some grid) kb nb = .ok s0)
    (h : vmftFit minimize rnd data weights "mle" optimizer (some grid) kb nb = .ok s) (hs : s.mu ≠ 2 * π)
    (c : ℝ) (hc : c = 0 ∨ c ∈ grid) (hcb : nb.1 ≤ c ∧ c ≤ nb.2) :
    logLik (fun y => vmftPdfMethod guess y ⟨s0.mu, s0.kappa, c⟩) data (fullWeights data.length weights)
      ≤ logLik (fun y => vmftPdfMethod guess y s) data (fullWeights data.length weights) := by
  obtain ⟨w, hw, name, r, hr, hsu, rfl⟩ := vmftFit_mle hdata h
  have e0 : s0 = ⟨(fitMomentStart rnd data w kb).1, (fitMomentStart rnd data w kb).2, 0⟩ := by
    unfold vmftFit at h0
    simp only [map_wrap_regular hdata, hw, bind, Except.bind] at h0
    split_ifs at h0 with a
    · cases h0; rfl
  rw [fitWeights_full hw]
  obtain ⟨hlen, -, -⟩ := fitWeights_ok hw
  obtain ⟨m1, m2⟩ := fitStart_range data w
  have hkm : kb.1 ≤ s0.kappa ∧ s0.kappa ≤ kb.2 := by rw [e0]; exact clip_mem hkb
  have hm : s0.mu = (fitStart data w).1 := by rw [e0]; rfl
  have hv0 := vmftNll_eq guess (t := ⟨s0.mu, s0.kappa, c⟩) hlen hdata (by rw [hm]; exact m1) (by rw [hm]; exact m2) hk0 hk1 hn0 hn1 hkm hcb
  have hs1 : (fitMomentStart rnd data w kb).1 = s0.mu := by rw [e0]
  have hs2 : (fitMomentStart rnd data w kb).2 = s0.kappa := by rw [e0]
  rw [hs1, hs2] at hr
  obtain ⟨u, hu, huv⟩ := grid_best (fun c => vmftNll kb nb data w ⟨s0.mu, s0.kappa, c⟩)
    (((0 :: grid).mergeSort (fun a b => decide (a ≤ b))).dedup) 0 c (by
      refine List.mem_cons_of_mem _ (List.mem_dedup.2 (List.mem_mergeSort.2 ?_))
      rcases hc with rfl | hc
      · exact List.mem_cons_self
      · exact List.mem_cons_of_mem _ hc) _ hv0
  obtain ⟨v, hv1, hv2⟩ := hopt name (vmftNll kb nb data w) _ (by rw [← hr]; exact hsu) u (by exact hu)
  rw [← hr] at hv1
  obtain ⟨h0, h1, h2⟩ := vmftNll_some hv1
  simp only at h0 h1 h2
  have hw1 : wrapDirection (r.x 0) = pymod (r.x 0) (2 * π) := far_of_ne hs
  have hlt : r.x 0 < 2 * π := by
    rcases h0.2.lt_or_eq with h | h
    · exact h
    · exfalso
      refine hs (wrap2pi_close ?_)
      rw [h, sub_self, abs_zero]
      exact wrapTol_pos.le
  rw [pymod_eq_self two_pi_pos h0.1 hlt] at hw1
  have hest : (⟨wrapDirection (r.x 0), clip (r.x 1) kb.1 kb.2, clip (r.x 2) nb.1 nb.2⟩ : VMFT) = ⟨r.x 0, r.x 1, r.x 2⟩ := by
    rw [hw1]
    unfold clip
    rw [max_eq_left h1.1, min_eq_left h1.2, max_eq_left h2.1, min_eq_left h2.2]
  rw [hest]
  rw [vmftNll_eq guess hlen hdata (t := ⟨r.x 0, r.x 1, r.x 2⟩) h0.1 hlt hk0 hk1 hn0 hn1 h1 h2] at hv1
  have := Option.some.inj hv1
  linarith

/-! ## Kato-Jones -/

/-- The bounds handed to the optimiser: distributions.py 8763-8768, in the coordinates
`(mu, gamma, s, phi)`. -/
def kjBounds : Set (Fin 4 → ℝ) :=
  {p | (0 ≤ p 0 ∧ p 0 ≤ 2 * π) ∧ (1 / 10 ^ 6 ≤ p 1 ∧ p 1 ≤ 1 - 1 / 10 ^ 6) ∧ (0 ≤ p 2 ∧ p 2 ≤ 1 - 1 / 10 ^ 6) ∧ (0 ≤ p 3 ∧ p 3 ≤ 2 * π)}

open Classical in
private lemma kjObjective_eq (x w : List ℝ) (p : Fin 4 → ℝ) {u : KJ}
    (hu : u = ⟨wrapDirection (p 0), clip (p 1) (1 / 10 ^ 6) (1 - 1 / 10 ^ 9),
      (kjFromAux (clip (p 1) (1 / 10 ^ 6) (1 - 1 / 10 ^ 9)) (clip (p 2) 0 (1 - 1 / 10 ^ 9)) (pymod (p 3) (2 * π))).1,
      (kjFromAux (clip (p 1) (1 / 10 ^ 6) (1 - 1 / 10 ^ 9)) (clip (p 2) 0 (1 - 1 / 10 ^ 9)) (pymod (p 3) (2 * π))).2⟩) :
    (¬ (kjArgcheck u ∧ ∀ xi ∈ x, 0 < kjPdf xi u) → kjObjective x w p = 10 ^ 12) ∧
    (kjArgcheck u ∧ (∀ xi ∈ x, 0 < kjPdf xi u) →
      kjObjective x w p = -(List.zipWith (fun xi wi => wi * log (kjPdf xi u)) x w).sum) := by
  have e : kjObjective x w p = if ¬ kjArgcheck u then 10 ^ 12
      else if ∃ xi ∈ x, kjPdf xi u ≤ 0 then 10 ^ 12
      else -(List.zipWith (fun xi wi => wi * log (kjPdf xi u)) x w).sum := by
    subst hu
    unfold kjObjective
    simp only
  rw [e]
  constructor
  · intro h
    by_cases h1 : kjArgcheck u
    · rw [if_neg (not_not.2 h1), if_pos]
      by_contra h2
      push Not at h2
      exact h ⟨h1, h2⟩
    · rw [if_pos h1]
  · rintro ⟨h1, h2⟩
    rw [if_neg (not_not.2 h1), if_neg (by push Not; exact h2)]

/-- **C109.** Kato-Jones: if a successful optimiser returns a minimum within its bounds, the estimate is at least
as likely as any parameters whose `(rho cos lam, rho sin lam)` is in the feasible disc, a relative `1e-6` away
from its border and `1e-12` from its centre, with `gamma` between `1e-6` and `1 - 1e-6` (and a log-likelihood
above `-1e12`, the value put in place of impossible parameters). -/
theorem C109_katojones (minimize : String → ((Fin 4 → ℝ) → ℝ) → (Fin 4 → ℝ) → MinResult 4)
    (hopt : ∀ name obj start, (minimize name obj start).success = true → (minimize name obj start).x ∈ kjBounds ∧
      ∀ p ∈ kjBounds, obj (minimize name obj start).x ≤ obj p)
    (data : List ℝ) (hdata : ∀ x ∈ data, RegularAngle x) (weights : Option (List ℝ)) (initial : KJ) (optimizer : String) (s : KJ)
    (h : kjFitMle minimize data weights initial optimizer = .ok s) (hs : s.mu ≠ 2 * π)
    (t : KJ) (hm0 : 0 ≤ t.mu) (hm1 : t.mu < 2 * π - wrapTol) (hg0 : 1 / 10 ^ 6 ≤ t.gamma) (hg1 : t.gamma ≤ 1 - 1 / 10 ^ 6)
    (hr0 : 0 < t.rho) (hr1 : t.rho ≤ 1 - 1 / 10 ^ 9) (hl0 : 0 ≤ t.lam) (hl1 : t.lam < 2 * π)
    (hd0 : (1 - t.gamma) * (1 / 10 ^ 12) ≤ sqrt ((t.rho * cos t.lam - t.gamma) ^ 2 + (t.rho * sin t.lam) ^ 2))
    (hd1 : sqrt ((t.rho * cos t.lam - t.gamma) ^ 2 + (t.rho * sin t.lam) ^ 2) ≤ (1 - t.gamma) * (1 - 1 / 10 ^ 6))
    (hpos : PositiveOn (fun y => distPdf katojones y t) data)
    (hlik : -10 ^ 12 < logLik (fun y => distPdf katojones y t) data (fullWeights data.length weights)) :
    PositiveOn (fun y => distPdf katojones y s) data ∧
      logLik (fun y => distPdf katojones y t) data (fullWeights data.length weights)
        ≤ logLik (fun y => distPdf katojones y s) data (fullWeights data.length weights) := by
  have hmain : ∃ w, fitWeights data.length weights = .ok w ∧ ∃ name x0 r,
      r = minimize name (kjObjective data w) x0 ∧ r.success = true ∧ s = kjEstimate r.x := by
    rcases hw : fitWeights data.length weights with e | w
    · unfold kjFitMle at h
      simp only [map_wrap_regular hdata, hw, bind, Except.bind] at h
      split_ifs at h
    refine ⟨w, rfl, ?_⟩
    unfold kjFitMle at h
    simp only [map_wrap_regular hdata, hw, bind, Except.bind] at h
    by_cases h0 : data.length = 0
    · rw [if_pos h0] at h; cases h
    rw [if_neg h0] at h
    generalize ![wrapDirection initial.mu, _, _, _] = st at h
    by_cases c1 : (minimize optimizer (kjObjective data w) st).success = false ∧ optimizer ≠ "Powell"
    · rw [if_pos c1] at h
      by_cases c2 : (minimize "Powell" (kjObjective data w) st).success = true
      · rw [if_pos c2, if_neg (by simp [c2])] at h
        exact ⟨"Powell", _, _, rfl, c2, (Except.ok.inj h).symm⟩
      · rw [if_neg c2, if_pos c1.1] at h
        cases h
    · rw [if_neg c1] at h
      by_cases c2 : (minimize optimizer (kjObjective data w) st).success = false
      · rw [if_pos c2] at h
        cases h
      · rw [if_neg c2] at h
        exact ⟨optimizer, _, _, rfl, by simpa using c2, (Except.ok.inj h).symm⟩
  obtain ⟨w, hw, name, x0, r, hr, hsu, rfl⟩ := hmain
  rw [fitWeights_full hw] at hlik ⊢
  obtain ⟨hb, hmin⟩ := hopt name (kjObjective data w) x0 (by rw [← hr]; exact hsu)
  rw [← hr] at hb hmin
  have h6 : (0 : ℝ) < 1 / 10 ^ 6 := by positivity
  have h96 : (1 : ℝ) / 10 ^ 9 < 1 / 10 ^ 6 := by norm_num
  have h9 : (0 : ℝ) < 1 / 10 ^ 9 := by positivity
  have hg : 0 < 1 - t.gamma := by linarith
  have hd1' : sqrt ((t.rho * cos t.lam - t.gamma) ^ 2 + (t.rho * sin t.lam) ^ 2) ≤ (1 - t.gamma) * (1 - 1 / 10 ^ 9) :=
    hd1.trans (mul_le_mul_of_nonneg_left (by linarith) hg.le)
  have hA := kjAux_value (by linarith) (by linarith) hr0 hr1 hl0 hl1 hd0 hd1'
  have hinv := C79_aux_inverse (by linarith) (by linarith) hr0 hr1 hl0 hl1 hd0 hd1'
  have hs1 : (kjAux t.gamma t.rho t.lam).1 ≤ 1 - 1 / 10 ^ 6 := by
    rw [hA]; simp only; rw [div_le_iff₀ hg]; linarith
  have hs0 : 0 ≤ (kjAux t.gamma t.rho t.lam).1 := by
    rw [hA]; exact div_nonneg (sqrt_nonneg _) hg.le
  have hp0 : 0 ≤ (kjAux t.gamma t.rho t.lam).2 := by rw [hA]; exact pymod_nonneg two_pi_pos _
  have hp1 : (kjAux t.gamma t.rho t.lam).2 < 2 * π := by rw [hA]; exact pymod_lt two_pi_pos _
  have hmem : ![t.mu, t.gamma, (kjAux t.gamma t.rho t.lam).1, (kjAux t.gamma t.rho t.lam).2] ∈ kjBounds :=
    ⟨⟨hm0, by show t.mu ≤ _; linarith [wrapTol_pos]⟩, ⟨hg0, hg1⟩, ⟨hs0, hs1⟩, ⟨hp0, hp1.le⟩⟩
  have hwd : wrapDirection t.mu = t.mu := by
    unfold wrapDirection
    rw [wrap2pi_far (by rw [abs_sub_comm, abs_of_pos (by linarith [wrapTol_pos])]; linarith),
      pymod_eq_self two_pi_pos hm0 (by linarith [wrapTol_pos])]
  have harg : kjArgcheck t := by
    by_contra hc
    rcases data with _ | ⟨y, ys⟩
    · obtain ⟨a, b, c⟩ := fitWeights_ok hw
      rw [List.length_nil] at a
      rw [List.eq_nil_of_length_eq_zero a] at c
      simp at c
    · obtain ⟨v, e1, -⟩ := hpos y List.mem_cons_self
      simp only [distPdf] at e1
      rw [if_pos (show ¬ katojones.argcheck t from hc)] at e1
      cases e1
  have hval : ∀ u : KJ, kjArgcheck u → ∀ y ∈ data, distPdf katojones y u = some (kjPdf y u) := fun u hu y hy =>
    distPdf_regular katojones hu (hdata y hy)
  have hlogs : ∀ u : KJ, kjArgcheck u → (List.zipWith (fun xi wi => wi * log (kjPdf xi u)) data w).sum
      = logLik (fun y => distPdf katojones y u) data w := by
    intro u hu
    unfold logLik
    congr 1
    refine List.ext_getElem (by simp) fun i h1 h2 => ?_
    simp only [List.getElem_zipWith]
    rw [hval u hu _ (List.getElem_mem _)]
    rfl
  have hobj : kjObjective data w ![t.mu, t.gamma, (kjAux t.gamma t.rho t.lam).1, (kjAux t.gamma t.rho t.lam).2]
      = -logLik (fun y => distPdf katojones y t) data w := by
    have hu : t = ⟨wrapDirection t.mu, clip t.gamma (1 / 10 ^ 6) (1 - 1 / 10 ^ 9),
        (kjFromAux (clip t.gamma (1 / 10 ^ 6) (1 - 1 / 10 ^ 9)) (clip (kjAux t.gamma t.rho t.lam).1 0 (1 - 1 / 10 ^ 9))
          (pymod (kjAux t.gamma t.rho t.lam).2 (2 * π))).1,
        (kjFromAux (clip t.gamma (1 / 10 ^ 6) (1 - 1 / 10 ^ 9)) (clip (kjAux t.gamma t.rho t.lam).1 0 (1 - 1 / 10 ^ 9))
          (pymod (kjAux t.gamma t.rho t.lam).2 (2 * π))).2⟩ := by
      rw [kj_clip_self hg0 (by linarith), kj_clip_self hs0 (by linarith), pymod_eq_self two_pi_pos hp0 hp1, hinv, hwd]
    rw [(kjObjective_eq data w _ hu).2, hlogs t harg]
    refine ⟨harg, fun y hy => ?_⟩
    obtain ⟨v, e1, e2⟩ := hpos y hy
    simp only at e1
    rw [hval t harg y hy] at e1
    cases e1
    exact e2
  have hle := hmin _ hmem
  rw [hobj] at hle
  obtain ⟨-, b1, -, -⟩ := hb
  have hu : kjEstimate r.x = ⟨wrapDirection (r.x 0), clip (r.x 1) (1 / 10 ^ 6) (1 - 1 / 10 ^ 9),
      (kjFromAux (clip (r.x 1) (1 / 10 ^ 6) (1 - 1 / 10 ^ 9)) (clip (r.x 2) 0 (1 - 1 / 10 ^ 9)) (pymod (r.x 3) (2 * π))).1,
      (kjFromAux (clip (r.x 1) (1 / 10 ^ 6) (1 - 1 / 10 ^ 9)) (clip (r.x 2) 0 (1 - 1 / 10 ^ 9)) (pymod (r.x 3) (2 * π))).2⟩ := by
    unfold kjEstimate
    simp only
    rw [kj_clip_self b1.1 (show r.x 1 ≤ 1 - 1 / 10 ^ 9 by linarith [b1.2]),
      kj_clip_self (show 0 ≤ r.x 1 by linarith [b1.1]) (show r.x 1 ≤ 1 - 1 / 10 ^ 9 by linarith [b1.2])]
  obtain ⟨k1, k2⟩ := kjObjective_eq data w r.x hu
  by_cases hc : kjArgcheck (kjEstimate r.x) ∧ ∀ xi ∈ data, 0 < kjPdf xi (kjEstimate r.x)
  · rw [k2 hc, hlogs _ hc.1] at hle
    exact ⟨fun y hy => ⟨_, hval _ hc.1 y hy, hc.2 y hy⟩, by linarith⟩
  · rw [k1 hc] at hle
    linarith

/-! ## The hypotheses can be met

With the concentration fixed at 0 every direction is a minimum; an optimiser that reports success exactly when
`(1, 0, 0)` is a minimum satisfies the hypotheses, and the fit succeeds. -/

open Classical in
private noncomputable def exampleMin {σ : Type} (mk : ℝ → ℝ → ℝ → σ) (obj : σ → Option ℝ) : MinResult 3 :=
  if IsMinimum obj (mk 1 0 0) then ⟨true, ![1, 0, 0]⟩ else ⟨false, 0⟩

private lemma exampleMin_spec {σ : Type} (mk : ℝ → ℝ → ℝ → σ) (obj : σ → Option ℝ) (h : (exampleMin mk obj).success = true) :
    IsMinimum obj (mk ((exampleMin mk obj).x 0) ((exampleMin mk obj).x 1) ((exampleMin mk obj).x 2)) := by
  unfold exampleMin at *
  split_ifs at * with c
  exact c

private lemma one_regular : RegularAngle 1 :=
  ⟨by norm_num, Or.inl (by linarith [pi_gt_three, show (1 : ℝ) / 10 ^ 14 ≤ 1 by norm_num])⟩

private lemma wrap_one : wrapDirection 1 = 1 := regular_wrap one_regular

example (E : JPEnv) (rnd : ℝ → ℤ) :
    MaximisesLikelihood (fun y t => distPdf (jonespewsey E) y t) (jpBox (0, 0) (0, 0)) [1] (fullWeights 1 none) ⟨1, 0, 0⟩ := by
  have hw : fitWeights [(1 : ℝ)].length none = .ok [1] := by simp [fitWeights]
  have hreg : ∀ x ∈ [(1 : ℝ)], RegularAngle x := by simpa using one_regular
  have hpdf : ∀ m, 0 ≤ m → m ≤ 2 * π → ∀ y ∈ [(1 : ℝ)], distPdf (jonespewsey E) y ⟨m, 0, 0⟩ = some (1 / (2 * π)) := by
    intro m h0 h1 y hy
    rw [distPdf_regular (jonespewsey E) (show (jonespewsey E).argcheck ⟨m, 0, 0⟩ from ⟨⟨h0, h1⟩, le_refl _⟩) (hreg y hy)]
    congr 1
    show jpPdf E.lpmv y m 0 0 = _
    unfold jpPdf
    rw [if_pos (by unfold jpKappaTol; norm_num)]
  have hval : ∀ m, jpNll (fun y s => (distPdf (jonespewsey E) y s).getD 0) (0, 0) (0, 0) [1] [1] ⟨m, 0, 0⟩ = some (-log (1 / (2 * π))) := by
    intro m
    have e := hpdf (pymod m (2 * π)) (pymod_nonneg two_pi_pos _) (pymod_lt two_pi_pos _).le
    rw [jpNll_eq (E := E) ⟨le_refl _, le_refl _⟩ ⟨le_refl _, le_refl _⟩ (fun y hy => ⟨_, e y hy, by positivity⟩)]
    simp [logLik, e]
  have hmin : IsMinimum (jpNll (fun y s => (distPdf (jonespewsey E) y s).getD 0) (0, 0) (0, 0) [1] [1]) ⟨1, 0, 0⟩ := by
    refine ⟨_, hval 1, fun t u hu => ?_⟩
    obtain ⟨h1, h2, -, -⟩ := jpNll_some (le_refl (0 : ℝ)) hu
    have ht : t = ⟨t.mu, 0, 0⟩ := by
      rcases t with ⟨a, b, c⟩
      simp only at h1 h2
      rw [le_antisymm h1.2 h1.1, le_antisymm h2.2 h2.1]
    rw [ht, hval] at hu
    exact le_of_eq (Option.some.inj hu)
  have hfit : jpFit E (fun obj _ => exampleMin (fun a b c => (⟨a, b, c⟩ : JP)) obj) rnd [1] none "mle" (0, 0) (0, 0) = .ok ⟨1, 0, 0⟩ := by
    rw [jpFit_mle E _ rnd hreg hw (0, 0) (0, 0) rfl rfl]
    unfold exampleMin
    rw [if_pos hmin, if_pos rfl]
    unfold jpEstimate
    simp [wrap_one, clip]
  exact C109_jonespewsey E _ rnd (fun obj _ h => exampleMin_spec (fun a b c => (⟨a, b, c⟩ : JP)) obj h) [1] hreg none (0, 0) (0, 0) (le_refl _) _ hfit
    (by show (1 : ℝ) ≠ 2 * π; linarith [pi_gt_three])

example (rnd : ℝ → ℤ) :
    MaximisesLikelihood (fun y t => vmftPdfMethod id y t) (vmftBox (0, 0) (0, 0)) [1] (fullWeights 1 none) ⟨1, 0, 0⟩ := by
  have hw : fitWeights [(1 : ℝ)].length none = .ok [1] := by simp [fitWeights]
  have hreg : ∀ x ∈ [(1 : ℝ)], RegularAngle x := by simpa using one_regular
  have hval : ∀ m, 0 ≤ m → m ≤ 2 * π → vmftNll (0, 0) (0, 0) [1] [1] ⟨m, 0, 0⟩ = some (log (2 * π)) := by
    intro m h0 h1
    unfold vmftNll
    rw [if_neg (not_not.2 ⟨h0, h1⟩), if_neg (by simp), if_neg (by simp), if_pos (by unfold vmftKappaTol; positivity)]
    simp
  have h1 : (1 : ℝ) ≤ 2 * π := by linarith [pi_gt_three]
  have hmin : IsMinimum (vmftNll (0, 0) (0, 0) [1] [1]) ⟨1, 0, 0⟩ := by
    refine ⟨_, hval 1 (by norm_num) h1, fun t u hu => ?_⟩
    obtain ⟨h0, h1, h2⟩ := vmftNll_some hu
    have ht : t = ⟨t.mu, 0, 0⟩ := by
      rcases t with ⟨a, b, c⟩
      simp only at h1 h2
      rw [le_antisymm h1.2 h1.1, le_antisymm h2.2 h2.1]
    rw [ht, hval _ h0.1 h0.2] at hu
    exact le_of_eq (Option.some.inj hu)
  have hfit : vmftFit (fun _ obj _ => exampleMin (fun a b c => (⟨a, b, c⟩ : VMFT)) obj) rnd [1] none "mle" "L-BFGS-B" none (0, 0) (0, 0)
      = .ok ⟨1, 0, 0⟩ := by
    unfold vmftFit
    simp only [map_wrap_regular hreg, hw, bind, Except.bind]
    unfold exampleMin
    rw [if_pos hmin]
    simp [wrap_one, clip]
  exact C109_flat id _ rnd (fun _ obj _ h => exampleMin_spec (fun a b c => (⟨a, b, c⟩ : VMFT)) obj h) [1] hreg none "L-BFGS-B" none (0, 0) (0, 0)
    (le_refl _) (by norm_num) (by norm_num) (by norm_num) _ hfit (by show (1 : ℝ) ≠ 2 * π; linarith [pi_gt_three])

end Verif
