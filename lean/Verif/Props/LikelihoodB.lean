import Verif.Props.Likelihood

/-! # Property C109, continued: improvement over the starting values, the sine-skewed family -/

set_option autoImplicit false

namespace Verif

open Real Verif.Spec

/-! ## The grid of starting values -/

private lemma infLt_elim {a b : Option ℝ} {v : ℝ} (hb : b = some v) (h : ¬ infLt b a) : ∃ u, a = some u ∧ u ≤ v := by
  rcases a with _ | u
  · exact absurd (by rw [hb]; trivial) h
  · refine ⟨u, rfl, ?_⟩
    rw [hb] at h
    exact not_lt.1 h

open Classical in
theorem grid_best {α : Type} (score : α → Option ℝ) (l : List α) (a : α) : ∀ c ∈ a :: l, ∀ v, score c = some v →
    ∃ u, score ((l.foldl (fun (acc : α × Option ℝ) cand =>
      if infLt (score cand) acc.2 then (cand, score cand) else acc) (a, score a)).1) = some u ∧ u ≤ v := by
  induction l generalizing a with
  | nil => intro c hc v hv; rw [List.mem_singleton] at hc; exact ⟨v, by simpa [← hc] using hv, le_refl _⟩
  | cons b l ih =>
    intro c hc v hv
    rw [List.foldl_cons]
    by_cases hlt : infLt (score b) (score a)
    · rw [if_pos hlt]
      rcases List.mem_cons.1 hc with rfl | hc
      · rcases hb : score b with _ | u
        · rw [hb] at hlt; exact absurd hlt (by simp [infLt])
        · rw [hb, hv] at hlt
          obtain ⟨u', h1, h2⟩ := ih b b List.mem_cons_self u hb
          rw [hb] at h1
          exact ⟨u', h1, h2.trans (le_of_lt hlt)⟩
      · exact ih b c hc v hv
    · rw [if_neg hlt]
      rcases List.mem_cons.1 hc with rfl | hc
      · exact ih c c List.mem_cons_self v hv
      · rcases List.mem_cons.1 hc with rfl | hc
        · obtain ⟨u, h1, h2⟩ := infLt_elim hv hlt
          obtain ⟨u', h3, h4⟩ := ih a a List.mem_cons_self u h1
          exact ⟨u', h3, h4.trans h2⟩
        · exact ih a c (List.mem_cons_of_mem _ hc) v hv

private lemma jpPsiInit_best (nll : JP → Option ℝ) (pb : ℝ × ℝ) (mu kappa : ℝ) {c : ℝ}
    (hc : c = 0 ∨ ∃ i < 9, c = pb.1 + (i : ℕ) * ((pb.2 - pb.1) / 8)) {v : ℝ} (hv : nll ⟨mu, kappa, c⟩ = some v) :
    ∃ u, nll ⟨mu, kappa, jpPsiInit nll pb mu kappa⟩ = some u ∧ u ≤ v := by
  have h := grid_best (fun c => nll ⟨mu, kappa, c⟩) ((List.range 9).map fun i : ℕ => pb.1 + i * ((pb.2 - pb.1) / 8)) 0 c ?_ v hv
  · rw [List.foldl_map] at h
    exact h
  · rcases hc with rfl | ⟨i, hi, rfl⟩
    · exact List.mem_cons_self
    · exact List.mem_cons_of_mem _ (List.mem_map.2 ⟨i, List.mem_range.2 hi, rfl⟩)

/-- Checked weights pass the check again unchanged. -/
theorem fitWeights_again {n : ℕ} {weights : Option (List ℝ)} {w : List ℝ} (h : fitWeights n weights = .ok w) :
    fitWeights n (some w) = .ok w := by
  obtain ⟨h1, h2, h3⟩ := fitWeights_ok h
  unfold fitWeights
  simp only
  rw [if_neg (by push Not; exact h2), show broadcastTo n w = some w from ?_]
  · simp only
    rw [if_neg (not_le.2 h3)]
  · unfold broadcastTo
    rw [if_pos h1]

theorem fitStart_range (data w : List ℝ) : 0 ≤ (fitStart data w).1 ∧ (fitStart data w).1 < 2 * π := by
  unfold fitStart
  split
  · exact ⟨le_refl _, two_pi_pos⟩
  exact ⟨pymod_nonneg two_pi_pos _, pymod_lt two_pi_pos _⟩

/-- **C109.** Jones-Pewsey: if the optimiser never ends at a point worse than its start, the maximum likelihood
estimate is at least as likely as the moment estimate, with `psi` zero or any of the nine grid values. -/
theorem C109_jonespewsey_improves (E : JPEnv) (minimize : (JP → Option ℝ) → JP → MinResult 3) (rnd : ℝ → ℤ)
    (hopt : ∀ obj start, (minimize obj start).success = true →
      NotWorse obj start ⟨(minimize obj start).x 0, (minimize obj start).x 1, (minimize obj start).x 2⟩)
    (data : List ℝ) (hdata : ∀ x ∈ data, RegularAngle x) (weights : Option (List ℝ)) (kb pb : ℝ × ℝ) (hk0 : 0 ≤ kb.1) (hkb : kb.1 ≤ kb.2)
    (s0 s : JP) (h0 : jpFit E minimize rnd data weights "moments" kb pb = .ok s0)
    (h : jpFit E minimize rnd data weights "mle" kb pb = .ok s) (hs0 : s0.mu ≠ 2 * π) (hs : s.mu ≠ 2 * π)
    (c : ℝ) (hc : c = 0 ∨ ∃ i < 9, c = pb.1 + (i : ℕ) * ((pb.2 - pb.1) / 8)) (hcb : pb.1 ≤ c ∧ c ≤ pb.2)
    (hpos : PositiveOn (fun y => distPdf (jonespewsey E) y ⟨s0.mu, s0.kappa, c⟩) data) :
    PositiveOn (fun y => distPdf (jonespewsey E) y s) data ∧
      logLik (fun y => distPdf (jonespewsey E) y ⟨s0.mu, s0.kappa, c⟩) data (fullWeights data.length weights)
        ≤ logLik (fun y => distPdf (jonespewsey E) y s) data (fullWeights data.length weights) := by
  rcases hw : fitWeights data.length weights with e | w
  · unfold jpFit at h
    simp only [map_wrap_regular hdata, hw, bind, Except.bind] at h
    split_ifs at h
  rw [jpFit_mle E minimize rnd hdata hw kb pb rfl rfl] at h
  have e0 : s0 = ⟨wrapDirection (fitMomentStart rnd data w kb).1, (fitMomentStart rnd data w kb).2, 0⟩ := by
    unfold jpFit at h0
    simp only [map_wrap_regular hdata, hw, bind, Except.bind] at h0
    split_ifs at h0 with a b d <;> simp_all [fitMomentStart]
  rw [fitWeights_full hw]
  obtain ⟨m1, m2⟩ := fitStart_range data w
  have hm : s0.mu = (fitMomentStart rnd data w kb).1 := by
    rw [e0] at hs0 ⊢
    simp only at hs0 ⊢
    rw [far_of_ne hs0]
    exact pymod_eq_self two_pi_pos m1 m2
  have hk : s0.kappa = (fitMomentStart rnd data w kb).2 := by rw [e0]
  have hkm : kb.1 ≤ s0.kappa ∧ s0.kappa ≤ kb.2 := by rw [hk]; exact clip_mem hkb
  rw [← hm, ← hk] at h
  have hmm : pymod s0.mu (2 * π) = s0.mu := by rw [hm]; exact pymod_eq_self two_pi_pos m1 m2
  obtain ⟨nll, hnll⟩ : ∃ nll, nll = jpNll (fun y s => (distPdf (jonespewsey E) y s).getD 0) kb pb data w := ⟨_, rfl⟩
  rw [← hnll] at h
  have hv : nll ⟨s0.mu, s0.kappa, c⟩ = some (-logLik (fun y => distPdf (jonespewsey E) y ⟨s0.mu, s0.kappa, c⟩) data w) := by
    have := jpNll_eq (E := E) (kb := kb) (pb := pb) (x := data) (w := w) (t := ⟨s0.mu, s0.kappa, c⟩) hkm hcb
      (by simp only [hmm]; exact hpos)
    simp only [hmm] at this
    rw [hnll]; exact this
  obtain ⟨u, hu, huv⟩ := jpPsiInit_best nll pb s0.mu s0.kappa hc hv
  generalize hr : minimize nll _ = r at h
  split_ifs at h with cs
  cases h
  obtain ⟨v, hv1, hv2⟩ := hopt nll _ (by rw [hr]; exact cs) u hu
  rw [hr, hnll] at hv1
  obtain ⟨h1, h2, h3, h4⟩ := jpNll_some hk0 hv1
  simp only at h1 h2 h3 h4
  have hest : jpEstimate kb pb r.x = ⟨pymod (r.x 0) (2 * π), r.x 1, r.x 2⟩ := by
    unfold jpEstimate
    rw [show wrapDirection (r.x 0) = pymod (r.x 0) (2 * π) from far_of_ne hs]
    unfold clip
    rw [max_eq_left h1.1, min_eq_left h1.2, max_eq_left h2.1, min_eq_left h2.2]
  rw [hest]
  exact ⟨h3, by linarith⟩

/-! ## The sine-skewed family -/

private lemma sum_split {c k : ℝ → ℝ} : ∀ {x w : List ℝ}, (∀ y ∈ x, 0 < c y ∧ 0 < k y) →
    (List.zipWith (fun y wi => wi * log (c y * k y)) x w).sum
      = (List.zipWith (fun y wi => wi * log (c y)) x w).sum + (List.zipWith (fun y wi => wi * log (k y)) x w).sum
  | [], _, _ => by simp
  | _ :: _, [], _ => by simp
  | y :: x, v :: w, h => by
    obtain ⟨h1, h2⟩ := h y List.mem_cons_self
    simp only [List.zipWith_cons_cons, List.sum_cons]
    rw [sum_split fun z hz => h z (List.mem_cons_of_mem _ hz), log_mul h1.ne' h2.ne']
    ring

/-- **C109.** Sine-skewed Jones-Pewsey, two-step fit: location, concentration and shape are those of the
symmetric fit, and if a successful scalar optimiser returns a minimum, the skewness has the largest likelihood
of the skewed density among all skewness values strictly within the bounds. -/
theorem C109_sineskewed_twostep (E : JPEnv) (minimize3 : (JP → Option ℝ) → JP → MinResult 3)
    (minScalar : (ℝ → Option ℝ) → ℝ × ℝ → Bool × ℝ) (minimize4 : (JSS → Option ℝ) → JSS → MinResult 4) (rnd : ℝ → ℤ)
    (hopt : ∀ obj b, (minScalar obj b).1 = true → IsMinimum obj (minScalar obj b).2)
    (data : List ℝ) (hdata : ∀ x ∈ data, RegularAngle x) (weights : Option (List ℝ)) (kb pb lb : ℝ × ℝ) (hk0 : 0 ≤ kb.1)
    (hkb : kb.1 ≤ kb.2) (hpb : pb.1 ≤ pb.2) (hl0 : -1 ≤ lb.1) (hl1 : lb.2 ≤ 1) (s : JSS)
    (h : jssFit E minimize3 minScalar minimize4 rnd data weights "two-step" false kb pb lb = .ok s) :
    jpFit E minimize3 rnd data (some (fullWeights data.length weights)) "mle" kb pb = .ok ⟨s.xi, s.kappa, s.psi⟩ ∧
    (lb.1 < s.lmbd ∧ s.lmbd < lb.2) ∧
    ∀ t, lb.1 < t → t < lb.2 → PositiveOn (fun y => distPdf (jonespewseySineskewed E) y ⟨s.xi, s.kappa, s.psi, t⟩) data →
      PositiveOn (fun y => distPdf (jonespewseySineskewed E) y s) data ∧
      logLik (fun y => distPdf (jonespewseySineskewed E) y ⟨s.xi, s.kappa, s.psi, t⟩) data (fullWeights data.length weights)
        ≤ logLik (fun y => distPdf (jonespewseySineskewed E) y s) data (fullWeights data.length weights) := by
  rcases hw : fitWeights data.length weights with e | w
  · unfold jssFit at h
    simp only [map_wrap_regular hdata, hw, bind, Except.bind] at h
    split_ifs at h
  rw [fitWeights_full hw]
  unfold jssFit at h
  simp only [map_wrap_regular hdata, hw, bind, Except.bind] at h
  rcases hb : jpFit E minimize3 rnd data (some w) "mle" kb pb with e | base
  · rw [hb] at h
    simp only at h
    split_ifs at h
  obtain ⟨b1, b2, -⟩ := jpFit_mem E minimize3 rnd _ _ _ kb pb hkb hpb base hb
  rw [hb] at h
  simp only at h
  generalize hr : minScalar _ _ = r at h
  have hmain : r.1 = true ∧ s = ⟨base.mu, base.kappa, base.psi, clip r.2 lb.1 lb.2⟩ := by
    split_ifs at h <;> simp_all
  obtain ⟨c2', rfl⟩ := hmain
  obtain ⟨v, hv, hmin⟩ := hopt _ _ (by rw [hr]; exact c2')
  rw [hr] at hv
  unfold jssLambdaNll at hv
  split_ifs at hv with d1 d2
  push Not at d2
  have hcl : clip r.2 lb.1 lb.2 = r.2 := by
    unfold clip; rw [max_eq_left d1.1.le, min_eq_left d1.2.le]
  simp only [hcl]
  refine ⟨trivial, d1, fun t ht0 ht1 hpos => ?_⟩
  have base_pdf : ∀ l, |l| ≤ 1 → ∀ y ∈ data, distPdf (jonespewseySineskewed E) y ⟨base.mu, base.kappa, base.psi, l⟩
      = some ((distPdf (jonespewsey E) y base).getD 0 * (1 + l * sin (y - base.mu))) := by
    intro l hl y hy
    obtain ⟨v, e1, e2⟩ := C77_density E (psi := base.psi) b1.1 b1.2 (hk0.trans b2.1) hl (hdata y hy)
    rw [e2]
    congr 2
    show v = (distPdf (jonespewsey E) y ⟨base.mu, base.kappa, base.psi⟩).getD 0
    rw [e1]; rfl
  have ht : |t| ≤ 1 := abs_le.2 ⟨by linarith, by linarith⟩
  have hl : |r.2| ≤ 1 := abs_le.2 ⟨by linarith [d1.1], by linarith [d1.2]⟩
  have hpt : ∀ y ∈ data, 0 < (distPdf (jonespewsey E) y base).getD 0 ∧ 0 < 1 + t * sin (y - base.mu) := by
    intro y hy
    obtain ⟨v, e1, e2⟩ := hpos y hy
    simp only at e1
    rw [base_pdf t ht y hy] at e1
    cases e1
    have h1 : |t * sin (y - base.mu)| ≤ 1 := by
      rw [abs_mul]
      exact mul_le_one₀ ht (abs_nonneg _) (abs_sin_le_one _)
    have h2 : 0 ≤ 1 + t * sin (y - base.mu) := by linarith [(abs_le.1 h1).1]
    rcases h2.lt_or_eq with h3 | h3
    · exact ⟨pos_of_mul_pos_left e2 h2, h3⟩
    · rw [← h3, mul_zero] at e2; exact absurd e2 (lt_irrefl _)
  have hlog : ∀ l, |l| ≤ 1 → (∀ y ∈ data, 0 < 1 + l * sin (y - base.mu)) →
      logLik (fun y => distPdf (jonespewseySineskewed E) y ⟨base.mu, base.kappa, base.psi, l⟩) data w
        = (List.zipWith (fun y wi => wi * log ((distPdf (jonespewsey E) y base).getD 0)) data w).sum
          + (List.zipWith (fun y wi => wi * log (1 + l * sin (y - base.mu))) data w).sum := by
    intro l hl hp
    unfold logLik
    rw [← sum_split fun y hy => ⟨(hpt y hy).1, hp y hy⟩]
    congr 1
    refine List.ext_getElem (by simp) fun i h1 h2 => ?_
    simp only [List.getElem_zipWith]
    rw [base_pdf l hl _ (List.getElem_mem _)]
    rfl
  refine ⟨fun y hy => ⟨_, base_pdf r.2 hl y hy, mul_pos (hpt y hy).1 (d2 y hy)⟩, ?_⟩
  rw [hlog t ht fun y hy => (hpt y hy).2, hlog r.2 hl d2]
  have hm := hmin t (-(List.zipWith (fun y wi => wi * log (1 + t * sin (y - base.mu))) data w).sum) (by
    unfold jssLambdaNll
    rw [if_neg (not_not.2 ⟨ht0, ht1⟩), if_neg]
    push Not
    exact fun y hy => (hpt y hy).2)
  have hv' := Option.some.inj hv
  linarith

/-- The parameters over which the sine-skewed likelihood is maximised. -/
def jssBox (kb pb lb : ℝ × ℝ) : Set JSS :=
  {t | (0 ≤ t.xi ∧ t.xi < 2 * π) ∧ (kb.1 ≤ t.kappa ∧ t.kappa ≤ kb.2) ∧ (pb.1 ≤ t.psi ∧ t.psi ≤ pb.2) ∧ (lb.1 < t.lmbd ∧ t.lmbd < lb.2)}

/-- **C109.** Sine-skewed Jones-Pewsey, joint fit (`method="mle"` or `refine=True`): if a successful optimiser
returns a minimum, the estimate maximises the weighted likelihood of `pdf` over all four parameters. -/
theorem C109_sineskewed (E : JPEnv) (minimize3 : (JP → Option ℝ) → JP → MinResult 3)
    (minScalar : (ℝ → Option ℝ) → ℝ × ℝ → Bool × ℝ) (minimize4 : (JSS → Option ℝ) → JSS → MinResult 4) (rnd : ℝ → ℤ)
    (hopt : ∀ obj start, (minimize4 obj start).success = true → IsMinimum obj
      ⟨(minimize4 obj start).x 0, (minimize4 obj start).x 1, (minimize4 obj start).x 2, (minimize4 obj start).x 3⟩)
    (data : List ℝ) (hdata : ∀ x ∈ data, RegularAngle x) (weights : Option (List ℝ)) (method : String) (refine : Bool)
    (hmethod : method = "mle" ∨ refine = true) (kb pb lb : ℝ × ℝ) (s : JSS)
    (h : jssFit E minimize3 minScalar minimize4 rnd data weights method refine kb pb lb = .ok s) (hs : s.xi ≠ 2 * π) :
    MaximisesLikelihood (fun y t => distPdf (jonespewseySineskewed E) y t) (jssBox kb pb lb) data (fullWeights data.length weights) s := by
  rcases hw : fitWeights data.length weights with e | w
  · unfold jssFit at h
    simp only [map_wrap_regular hdata, hw, bind, Except.bind] at h
    split_ifs at h
  rw [fitWeights_full hw]
  unfold jssFit at h
  simp only [map_wrap_regular hdata, hw, bind, Except.bind] at h
  rcases hb : jpFit E minimize3 rnd data (some w) "mle" kb pb with e | base
  · rw [hb] at h
    simp only at h
    split_ifs at h
  rw [hb] at h
  simp only at h
  generalize hl : minScalar _ _ = l at h
  generalize hr : minimize4 _ _ = r at h
  have hmain : r.success = true ∧ s = ⟨wrapDirection (r.x 0), clip (r.x 1) kb.1 kb.2, clip (r.x 2) pb.1 pb.2, clip (r.x 3) lb.1 lb.2⟩ := by
    by_cases hm : method = "mle"
    · subst hm
      split_ifs at h <;> simp_all
    · have hrf : refine = true := hmethod.resolve_left hm
      subst hrf
      split_ifs at h <;> simp_all
  obtain ⟨hsu, rfl⟩ := hmain
  obtain ⟨v, hv, hmin⟩ := hopt _ _ (by rw [hr]; exact hsu)
  rw [hr] at hv
  unfold jssNll at hv
  simp only at hv
  split_ifs at hv with d1 d2 d3 d4
  push Not at d4
  have hest : (⟨wrapDirection (r.x 0), clip (r.x 1) kb.1 kb.2, clip (r.x 2) pb.1 pb.2, clip (r.x 3) lb.1 lb.2⟩ : JSS)
      = ⟨pymod (r.x 0) (2 * π), r.x 1, r.x 2, r.x 3⟩ := by
    rw [show wrapDirection (r.x 0) = pymod (r.x 0) (2 * π) from far_of_ne hs]
    unfold clip
    rw [max_eq_left d1.1, min_eq_left d1.2, max_eq_left d2.1, min_eq_left d2.2, max_eq_left d3.1.le, min_eq_left d3.2.le]
  rw [hest]
  refine ⟨⟨⟨pymod_nonneg two_pi_pos _, pymod_lt two_pi_pos _⟩, d1, d2, d3⟩, fun y hy => ?_, fun t ht hpos => ?_⟩
  · have h3 := d4 y hy
    simp only
    rcases hd : distPdf (jonespewseySineskewed E) y ⟨pymod (r.x 0) (2 * π), r.x 1, r.x 2, r.x 3⟩ with _ | u
    · rw [hd] at h3; simp at h3
    · rw [hd] at h3; exact ⟨u, rfl, by simpa using h3⟩
  · obtain ⟨a, b, c, d⟩ := ht
    have ht' : (⟨pymod t.xi (2 * π), t.kappa, t.psi, t.lmbd⟩ : JSS) = t := by rw [pymod_eq_self two_pi_pos a.1 a.2]
    have := hmin t (-logLik (fun y => distPdf (jonespewseySineskewed E) y t) data w) (by
      unfold jssNll
      simp only [ht']
      rw [if_neg (not_not.2 b), if_neg (not_not.2 c), if_neg (not_not.2 d), if_neg]
      · rfl
      · push Not
        intro y hy
        obtain ⟨v, hv, hv0⟩ := hpos y hy
        simp only at hv
        rw [hv]; exact hv0)
    have hv' := Option.some.inj hv
    show logLik (fun y => distPdf (jonespewseySineskewed E) y t) data w ≤ logLik (fun y => distPdf (jonespewseySineskewed E) y _) data w
    unfold logLik at *
    linarith

/-- **C109.** When the optimiser in use reports failure, the sine-skewed fit raises RuntimeError. -/
theorem C109_sineskewed_failure (E : JPEnv) (minimize3 : (JP → Option ℝ) → JP → MinResult 3)
    (minScalar : (ℝ → Option ℝ) → ℝ × ℝ → Bool × ℝ) (minimize4 : (JSS → Option ℝ) → JSS → MinResult 4) (rnd : ℝ → ℤ)
    (data : List ℝ) (hdata : ∀ x ∈ data, RegularAngle x) (weights : Option (List ℝ)) (w : List ℝ) (hw : fitWeights data.length weights = .ok w)
    (method : String) (refine : Bool) (hmethod : method = "mle" ∨ method = "two-step") (kb pb lb : ℝ × ℝ)
    (hfail : (∀ obj start, (minimize3 obj start).success = false) ∨ (∀ obj b, (minScalar obj b).1 = false) ∨
      ((method = "mle" ∨ refine = true) ∧ ∀ obj start, (minimize4 obj start).success = false)) :
    jssFit E minimize3 minScalar minimize4 rnd data weights method refine kb pb lb = .error .runtimeError := by
  have hne : data.length ≠ 0 := fun h0 => by
    obtain ⟨hl, -, hs⟩ := fitWeights_ok hw
    rw [h0] at hl
    rw [List.eq_nil_of_length_eq_zero hl] at hs
    simp at hs
  have hw2 : fitWeights data.length (some w) = .ok w := fitWeights_again hw
  unfold jssFit
  simp only [map_wrap_regular hdata, hw, bind, Except.bind]
  rw [if_neg hne, jpFit_mle E minimize3 rnd hdata hw2 kb pb rfl rfl]
  generalize hr : minimize3 _ _ = r
  by_cases hs : r.success = true
  · rw [if_pos hs]
    simp only
    rcases hfail with hf | hf | ⟨hm, hf⟩
    · have := hf _ _ |>.symm.trans (congrArg MinResult.success hr)
      rw [hs] at this; simp at this
    · simp [hf]
    · split_ifs <;> simp_all
  · rw [if_neg hs]

end Verif
