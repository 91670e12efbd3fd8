import Verif.Props.DistJonesPewseyB
import Verif.Props.DistKatoJonesC
import Verif.Props.DistFlat
import Verif.Spec.Likelihood

/-! # Property C109: what the maximum likelihood fits return

The optimisers of scipy are parameters. When a successful optimiser returns a minimum of the objective it was
given, the fit returns maximum likelihood estimates for the distribution's own `pdf`; when it fails, the fit
raises. (`mu = 2π` is set apart: directions within `1.4e-15` of `2π` are moved there.) -/

set_option autoImplicit false

namespace Verif

open Real Verif.Spec

theorem map_wrap_regular {data : List ℝ} (hdata : ∀ x ∈ data, RegularAngle x) : data.map wrap2pi = data := by
  conv_rhs => rw [← List.map_id data]
  exact List.map_congr_left fun x hx => regular_wrap (hdata x hx)

theorem far_of_ne {m : ℝ} (h : wrapDirection m ≠ 2 * π) : wrapDirection m = pymod m (2 * π) := by
  unfold wrapDirection at *
  by_cases c : |m - 2 * π| ≤ wrapTol
  · exact absurd (wrap2pi_close c) h
  · exact wrap2pi_far (not_le.1 c)

/-! ## Jones-Pewsey -/

theorem jpNll_some {E : JPEnv} {kb pb : ℝ × ℝ} {x w : List ℝ} {t : JP} (hk0 : 0 ≤ kb.1) {v : ℝ}
    (h : jpNll (fun y s => (distPdf (jonespewsey E) y s).getD 0) kb pb x w t = some v) :
    (kb.1 ≤ t.kappa ∧ t.kappa ≤ kb.2) ∧ (pb.1 ≤ t.psi ∧ t.psi ≤ pb.2) ∧
      PositiveOn (fun y => distPdf (jonespewsey E) y ⟨pymod t.mu (2 * π), t.kappa, t.psi⟩) x ∧
      v = -logLik (fun y => distPdf (jonespewsey E) y ⟨pymod t.mu (2 * π), t.kappa, t.psi⟩) x w := by
  unfold jpNll at h
  simp only at h
  split_ifs at h with c1 c2 c3
  refine ⟨c1, c2, fun xi hxi => ?_, (Option.some.inj h).symm⟩
  push Not at c3
  have h3 := c3 xi hxi
  rcases hd : distPdf (jonespewsey E) xi ⟨pymod t.mu (2 * π), t.kappa, t.psi⟩ with _ | u
  · rw [hd] at h3; simp at h3
  · rw [hd] at h3; exact ⟨u, hd, by simpa using h3⟩

theorem jpNll_eq {E : JPEnv} {kb pb : ℝ × ℝ} {x w : List ℝ} {t : JP} (hk : kb.1 ≤ t.kappa ∧ t.kappa ≤ kb.2)
    (hp : pb.1 ≤ t.psi ∧ t.psi ≤ pb.2) (hpos : PositiveOn (fun y => distPdf (jonespewsey E) y ⟨pymod t.mu (2 * π), t.kappa, t.psi⟩) x) :
    jpNll (fun y s => (distPdf (jonespewsey E) y s).getD 0) kb pb x w t
      = some (-logLik (fun y => distPdf (jonespewsey E) y ⟨pymod t.mu (2 * π), t.kappa, t.psi⟩) x w) := by
  unfold jpNll
  simp only
  rw [if_neg (not_not.2 hk), if_neg (not_not.2 hp), if_neg]
  · rfl
  · push Not
    intro xi hxi
    obtain ⟨v, hv, hv0⟩ := hpos xi hxi
    simp only at hv
    rw [hv]; exact hv0

/-- The parameters over which the Jones-Pewsey likelihood is maximised. -/
def jpBox (kb pb : ℝ × ℝ) : Set JP :=
  {t | (0 ≤ t.mu ∧ t.mu < 2 * π) ∧ (kb.1 ≤ t.kappa ∧ t.kappa ≤ kb.2) ∧ (pb.1 ≤ t.psi ∧ t.psi ≤ pb.2)}

/-- The moment estimates from which `jonespewsey.fit` and `vonmises_flattopped.fit` start. -/
noncomputable def fitMomentStart (rnd : ℝ → ℤ) (data w : List ℝ) (kb : ℝ × ℝ) : ℝ × ℝ :=
  ((fitStart data w).1, clip (circKappa (clip (fitStart data w).2 (1 / 10 ^ 12) (1 - 1 / 10 ^ 12)) (some (max 1 (rnd w.sum)).toNat)) kb.1 kb.2)

theorem jpFit_mle (E : JPEnv) (minimize : (JP → Option ℝ) → JP → MinResult 3) (rnd : ℝ → ℤ) {data : List ℝ}
    (hdata : ∀ x ∈ data, RegularAngle x) {weights : Option (List ℝ)} {w : List ℝ} (hw : fitWeights data.length weights = .ok w)
    (kb pb : ℝ × ℝ) {nll : JP → Option ℝ} (hn : nll = jpNll (fun y s => (distPdf (jonespewsey E) y s).getD 0) kb pb data w)
    {r : MinResult 3} (hr : r = minimize nll ⟨(fitMomentStart rnd data w kb).1, (fitMomentStart rnd data w kb).2,
      jpPsiInit nll pb (fitMomentStart rnd data w kb).1 (fitMomentStart rnd data w kb).2⟩) :
    jpFit E minimize rnd data weights "mle" kb pb = if r.success = true then .ok (jpEstimate kb pb r.x) else .error .runtimeError := by
  have hne : data.length ≠ 0 := fun h0 => by
    obtain ⟨hl, -, hs⟩ := fitWeights_ok hw
    rw [h0] at hl
    rw [List.eq_nil_of_length_eq_zero hl] at hs
    simp at hs
  unfold jpFit
  simp only [map_wrap_regular hdata, hw, bind, Except.bind]
  rw [if_neg hne, if_neg (by simp), if_neg (by simp), hr, hn]
  unfold fitMomentStart
  split_ifs <;> first | rfl | simp_all

/-- **C109.** Jones-Pewsey: if a successful optimiser returns a minimum of the objective it is given, then
the estimate of `fit(method="mle")` maximises the weighted likelihood of `pdf` within the bounds. -/
theorem C109_jonespewsey (E : JPEnv) (minimize : (JP → Option ℝ) → JP → MinResult 3) (rnd : ℝ → ℤ)
    (hopt : ∀ obj start, (minimize obj start).success = true →
      IsMinimum obj ⟨(minimize obj start).x 0, (minimize obj start).x 1, (minimize obj start).x 2⟩)
    (data : List ℝ) (hdata : ∀ x ∈ data, RegularAngle x) (weights : Option (List ℝ)) (kb pb : ℝ × ℝ) (hk0 : 0 ≤ kb.1) (s : JP)
    (h : jpFit E minimize rnd data weights "mle" kb pb = .ok s) (hs : s.mu ≠ 2 * π) :
    MaximisesLikelihood (fun y t => distPdf (jonespewsey E) y t) (jpBox kb pb) data (fullWeights data.length weights) s := by
  rcases hw : fitWeights data.length weights with e | w
  · unfold jpFit at h
    simp only [map_wrap_regular hdata, hw, bind, Except.bind] at h
    split_ifs at h
  rw [jpFit_mle E minimize rnd hdata hw kb pb rfl rfl] at h
  rw [fitWeights_full hw]
  generalize hr : minimize _ _ = r at h
  split_ifs at h with c
  cases h
  have hm := hopt _ _ (by rw [hr]; exact c)
  rw [hr] at hm
  obtain ⟨v, hv, hmin⟩ := hm
  obtain ⟨h1, h2, h3, h4⟩ := jpNll_some hk0 hv
  simp only at h1 h2 h3 h4
  have hest : jpEstimate kb pb r.x = ⟨pymod (r.x 0) (2 * π), r.x 1, r.x 2⟩ := by
    unfold jpEstimate
    rw [show wrapDirection (r.x 0) = pymod (r.x 0) (2 * π) from far_of_ne hs]
    unfold clip
    rw [max_eq_left h1.1, min_eq_left h1.2, max_eq_left h2.1, min_eq_left h2.2]
  rw [hest]
  refine ⟨⟨⟨pymod_nonneg two_pi_pos _, pymod_lt two_pi_pos _⟩, h1, h2⟩, h3, fun t ht hpos => ?_⟩
  obtain ⟨a, b, d⟩ := ht
  have ht' : (⟨pymod t.mu (2 * π), t.kappa, t.psi⟩ : JP) = t := by rw [pymod_eq_self two_pi_pos a.1 a.2]
  have := hmin t _ (jpNll_eq b d (by rw [ht']; exact hpos))
  rw [ht'] at this
  show logLik (fun y => distPdf (jonespewsey E) y t) data w ≤ logLik (fun y => distPdf (jonespewsey E) y _) data w
  linarith

/-- **C109.** When the optimiser reports failure, `fit(method="mle")` raises RuntimeError. -/
theorem C109_jonespewsey_failure (E : JPEnv) (minimize : (JP → Option ℝ) → JP → MinResult 3) (rnd : ℝ → ℤ)
    (hopt : ∀ obj start, (minimize obj start).success = false) (data : List ℝ) (hne : data ≠ []) (weights : Option (List ℝ)) (w : List ℝ)
    (hw : fitWeights data.length weights = .ok w) (kb pb : ℝ × ℝ) :
    jpFit E minimize rnd data weights "mle" kb pb = .error .runtimeError := by
  unfold jpFit
  simp only [List.length_map, hw, bind, Except.bind]
  rw [if_neg (by simpa using hne)]
  simp [hopt]

end Verif
