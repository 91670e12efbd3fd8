import Verif.Props.DistJPAsym
import Verif.Props.LikelihoodB

/-! # Properties C83 and C109: estimation in the asymmetric extended Jones-Pewsey family -/

set_option autoImplicit false

namespace Verif

open Real MeasureTheory Verif.Spec

theorem jpaFit_cases (E : JPEnv) (minimize3 : (JP → Option ℝ) → JP → MinResult 3) (minimize4 : (JPA → Option ℝ) → JPA → MinResult 4)
    (rnd : ℝ → ℤ) (data : List ℝ) (weights : Option (List ℝ)) (kb pb nb : ℝ × ℝ) (s : JPA)
    (h : jpaFit E minimize3 minimize4 rnd data weights kb pb nb = .ok s) :
    ∃ w base r, fitWeights (data.map wrap2pi).length weights = .ok w ∧ jpFit E minimize3 rnd (data.map wrap2pi) (some w) "mle" kb pb = .ok base ∧
      r = minimize4 (jpaNll (fun y s => (distPdf (jonespewseyAsym E) y s).getD 0) kb pb nb (data.map wrap2pi) w) ⟨base.mu, base.kappa, base.psi, 0⟩ ∧
      r.success = true ∧ s = ⟨wrapDirection (r.x 0), clip (r.x 1) kb.1 kb.2, clip (r.x 2) pb.1 pb.2, clip (r.x 3) nb.1 (nb.2 - 1 / 10 ^ 9)⟩ := by
  unfold jpaFit at h
  simp only at h
  rcases hw : fitWeights (data.map wrap2pi).length weights with e | w
  · rw [hw] at h
    split_ifs at h <;> cases h
  · rw [hw] at h
    simp only [bind, Except.bind] at h
    rcases hb : jpFit E minimize3 rnd (data.map wrap2pi) (some w) "mle" kb pb with e | base
    · rw [hb] at h
      simp only at h
      split_ifs at h <;> cases h
    · rw [hb] at h
      simp only at h
      split_ifs at h with c1 c2
      refine ⟨w, base, _, rfl, hb, rfl, by simpa using c2, ?_⟩
      cases h; rfl

/-- **C83.** Whatever the optimisers answer, an estimate of the asymmetric fit lies within the bounds given (the
skewness at least `1e-9` below its upper bound) and is accepted by the distribution. -/
theorem C83_jonespewsey_asym (E : JPEnv) (minimize3 : (JP → Option ℝ) → JP → MinResult 3) (minimize4 : (JPA → Option ℝ) → JPA → MinResult 4)
    (rnd : ℝ → ℤ) (data : List ℝ) (weights : Option (List ℝ)) (kb pb nb : ℝ × ℝ) (hk0 : 0 ≤ kb.1) (hkb : kb.1 ≤ kb.2)
    (hpb : pb.1 ≤ pb.2) (hn0 : 0 ≤ nb.1) (hnb : nb.1 ≤ nb.2 - 1 / 10 ^ 9) (hn1 : nb.2 ≤ 1) (s : JPA)
    (h : jpaFit E minimize3 minimize4 rnd data weights kb pb nb = .ok s) :
    (0 ≤ s.xi ∧ s.xi ≤ 2 * π) ∧ (kb.1 ≤ s.kappa ∧ s.kappa ≤ kb.2) ∧ (pb.1 ≤ s.psi ∧ s.psi ≤ pb.2) ∧
    (nb.1 ≤ s.nu ∧ s.nu ≤ nb.2 - 1 / 10 ^ 9) ∧
    ∀ x, RegularAngle x → ∃ v, distPdf (jonespewseyAsym E) x s = some v := by
  obtain ⟨w, base, r, -, -, -, -, rfl⟩ := jpaFit_cases E minimize3 minimize4 rnd data weights kb pb nb s h
  have h1 := wrap2pi_mem (r.x 0)
  have h2 := clip_mem (v := r.x 1) hkb
  have h4 := clip_mem (v := r.x 3) hnb
  have : (0 : ℝ) < 1 / 10 ^ 9 := by positivity
  exact ⟨h1, h2, clip_mem hpb, h4, fun x hx => ⟨_, distPdf_regular _ (show (jonespewseyAsym E).argcheck _ from
    ⟨h1, hk0.trans h2.1, hn0.trans h4.1, by show clip (r.x 3) nb.1 (nb.2 - 1 / 10 ^ 9) < 1; linarith [h4.2]⟩) hx⟩⟩

/-- The parameters over which the asymmetric likelihood is maximised. -/
def jpaBox (kb pb nb : ℝ × ℝ) : Set JPA :=
  {t | (0 ≤ t.xi ∧ t.xi < 2 * π) ∧ (kb.1 ≤ t.kappa ∧ t.kappa ≤ kb.2) ∧ (pb.1 ≤ t.psi ∧ t.psi ≤ pb.2) ∧ (nb.1 ≤ t.nu ∧ t.nu < nb.2)}

theorem jpaNll_box {E : JPEnv} {kb pb nb : ℝ × ℝ} {x w : List ℝ} {t : JPA} (ht : t ∈ jpaBox kb pb nb)
    (hpos : PositiveOn (fun y => distPdf (jonespewseyAsym E) y t) x) :
    jpaNll (fun y s => (distPdf (jonespewseyAsym E) y s).getD 0) kb pb nb x w t = some (-logLik (fun y => distPdf (jonespewseyAsym E) y t) x w) := by
  obtain ⟨a, b, c, d⟩ := ht
  have ht' : (⟨pymod t.xi (2 * π), t.kappa, t.psi, t.nu⟩ : JPA) = t := by rw [pymod_eq_self two_pi_pos a.1 a.2]
  unfold jpaNll
  simp only [ht']
  rw [if_neg (not_not.2 b), if_neg (not_not.2 c), if_neg (not_not.2 d), if_neg]
  · rfl
  · push Not
    intro y hy
    obtain ⟨v, hv, hv0⟩ := hpos y hy
    simp only at hv
    rw [hv]; exact hv0

theorem jpaNll_some {E : JPEnv} {kb pb nb : ℝ × ℝ} {x w : List ℝ} {t : JPA} {v : ℝ}
    (h : jpaNll (fun y s => (distPdf (jonespewseyAsym E) y s).getD 0) kb pb nb x w t = some v) :
    (⟨pymod t.xi (2 * π), t.kappa, t.psi, t.nu⟩ : JPA) ∈ jpaBox kb pb nb ∧
    PositiveOn (fun y => distPdf (jonespewseyAsym E) y ⟨pymod t.xi (2 * π), t.kappa, t.psi, t.nu⟩) x ∧
    v = -logLik (fun y => distPdf (jonespewseyAsym E) y ⟨pymod t.xi (2 * π), t.kappa, t.psi, t.nu⟩) x w := by
  unfold jpaNll at h
  simp only at h
  split_ifs at h with d1 d2 d3 d4
  push Not at d4
  refine ⟨⟨⟨pymod_nonneg two_pi_pos _, pymod_lt two_pi_pos _⟩, d1, d2, d3⟩, fun y hy => ?_, (Option.some.inj h).symm⟩
  have h3 := d4 y hy
  simp only
  rcases hd : distPdf (jonespewseyAsym E) y ⟨pymod t.xi (2 * π), t.kappa, t.psi, t.nu⟩ with _ | u
  · rw [hd] at h3; simp at h3
  · rw [hd] at h3; exact ⟨u, rfl, by simpa using h3⟩

theorem jpa_estimate {kb pb nb : ℝ × ℝ} {x : Fin 4 → ℝ} (hx : (⟨pymod (x 0) (2 * π), x 1, x 2, x 3⟩ : JPA) ∈ jpaBox kb pb nb)
    (hs : wrapDirection (x 0) ≠ 2 * π) (hn : clip (x 3) nb.1 (nb.2 - 1 / 10 ^ 9) < nb.2 - 1 / 10 ^ 9) :
    (⟨wrapDirection (x 0), clip (x 1) kb.1 kb.2, clip (x 2) pb.1 pb.2, clip (x 3) nb.1 (nb.2 - 1 / 10 ^ 9)⟩ : JPA)
      = ⟨pymod (x 0) (2 * π), x 1, x 2, x 3⟩ := by
  obtain ⟨-, b, c, d⟩ := hx
  have h3 : clip (x 3) nb.1 (nb.2 - 1 / 10 ^ 9) = x 3 := by
    unfold clip at hn ⊢
    rw [max_eq_left d.1] at hn ⊢
    exact min_eq_left (by
      by_contra hcon
      rw [min_eq_right (not_le.1 hcon).le] at hn
      exact lt_irrefl _ hn)
  rw [far_of_ne hs, h3]
  unfold clip
  rw [max_eq_left b.1, min_eq_left b.2, max_eq_left c.1, min_eq_left c.2]

/-- **C109.** Asymmetric Jones-Pewsey: if a successful optimiser returns a minimum, the estimate maximises the
weighted likelihood of `pdf` over all four parameters (unless the skewness was cut back to `1e-9` below its bound). -/
theorem C109_asym (E : JPEnv) (minimize3 : (JP → Option ℝ) → JP → MinResult 3) (minimize4 : (JPA → Option ℝ) → JPA → MinResult 4)
    (rnd : ℝ → ℤ)
    (hopt : ∀ obj start, (minimize4 obj start).success = true → IsMinimum obj
      ⟨(minimize4 obj start).x 0, (minimize4 obj start).x 1, (minimize4 obj start).x 2, (minimize4 obj start).x 3⟩)
    (data : List ℝ) (hdata : ∀ x ∈ data, RegularAngle x) (weights : Option (List ℝ)) (kb pb nb : ℝ × ℝ) (s : JPA)
    (h : jpaFit E minimize3 minimize4 rnd data weights kb pb nb = .ok s) (hs : s.xi ≠ 2 * π) (hn : s.nu < nb.2 - 1 / 10 ^ 9) :
    MaximisesLikelihood (fun y t => distPdf (jonespewseyAsym E) y t) (jpaBox kb pb nb) data (fullWeights data.length weights) s := by
  obtain ⟨w, base, r, hw, -, hr, hsu, rfl⟩ := jpaFit_cases E minimize3 minimize4 rnd data weights kb pb nb s h
  rw [map_wrap_regular hdata] at hw hr
  rw [fitWeights_full hw]
  obtain ⟨v, hv, hmin⟩ := hopt _ _ (by rw [← hr]; exact hsu)
  rw [← hr] at hv
  obtain ⟨h1, h2, h3⟩ := jpaNll_some hv
  rw [jpa_estimate h1 hs hn]
  refine ⟨h1, h2, fun t ht hpos => ?_⟩
  have := hmin t _ (jpaNll_box ht hpos)
  rw [h3] at this
  simp only at this ⊢
  linarith

/-- **C109.** Asymmetric Jones-Pewsey: if the second optimiser never ends at a point worse than its start, the estimate
is at least as likely as the symmetric Jones-Pewsey estimate from the same data. -/
theorem C109_asym_improves (E : JPEnv) (hl : LpmvExact E.lpmv) (minimize3 : (JP → Option ℝ) → JP → MinResult 3)
    (minimize4 : (JPA → Option ℝ) → JPA → MinResult 4) (rnd : ℝ → ℤ)
    (hopt : ∀ obj start, (minimize4 obj start).success = true → NotWorse obj start
      ⟨(minimize4 obj start).x 0, (minimize4 obj start).x 1, (minimize4 obj start).x 2, (minimize4 obj start).x 3⟩)
    (data : List ℝ) (hdata : ∀ x ∈ data, RegularAngle x) (weights : Option (List ℝ)) (kb pb nb : ℝ × ℝ) (hk0 : 0 ≤ kb.1) (hkb : kb.1 ≤ kb.2)
    (hpb : pb.1 ≤ pb.2) (hn0 : nb.1 ≤ 0) (hn1 : 0 < nb.2) (s0 : JP) (s : JPA)
    (h0 : jpFit E minimize3 rnd data weights "mle" kb pb = .ok s0)
    (h : jpaFit E minimize3 minimize4 rnd data weights kb pb nb = .ok s) (hs0 : s0.mu ≠ 2 * π) (hA : |s0.kappa * s0.psi| ≤ 700)
    (hs : s.xi ≠ 2 * π) (hn : s.nu < nb.2 - 1 / 10 ^ 9) :
    logLik (fun y => distPdf (jonespewsey E) y s0) data (fullWeights data.length weights)
      ≤ logLik (fun y => distPdf (jonespewseyAsym E) y s) data (fullWeights data.length weights) := by
  obtain ⟨w, base, r, hw, hb, hr, hsu, rfl⟩ := jpaFit_cases E minimize3 minimize4 rnd data weights kb pb nb s h
  rw [map_wrap_regular hdata] at hw hr hb
  rw [fitWeights_full hw]
  have hbase : base = s0 := by
    rw [jpFit_mle E minimize3 rnd hdata (fitWeights_again hw) kb pb rfl rfl] at hb
    rw [jpFit_mle E minimize3 rnd hdata hw kb pb rfl rfl, hb] at h0
    exact Except.ok.inj h0
  subst hbase
  obtain ⟨m1, m2, -⟩ := jpFit_mem E minimize3 rnd data weights "mle" kb pb hkb hpb base h0
  have m3 : pb.1 ≤ base.psi ∧ base.psi ≤ pb.2 := by
    rw [jpFit_mle E minimize3 rnd hdata hw kb pb rfl rfl] at h0
    split_ifs at h0
    cases h0
    exact clip_mem hpb
  have hk := hk0.trans m2.1
  have hin : (⟨base.mu, base.kappa, base.psi, 0⟩ : JPA) ∈ jpaBox kb pb nb :=
    ⟨⟨m1.1, lt_of_le_of_ne m1.2 hs0⟩, m2, m3, hn0, hn1⟩
  have hpos : PositiveOn (fun y => distPdf (jonespewseyAsym E) y ⟨base.mu, base.kappa, base.psi, 0⟩) data := fun y hy =>
    ⟨_, distPdf_regular _ (show (jonespewseyAsym E).argcheck ⟨base.mu, base.kappa, base.psi, 0⟩ from ⟨m1, hk, le_rfl, one_pos⟩) (hdata y hy),
      jpaPdf_pos _ _⟩
  obtain ⟨v, hv, hle⟩ := hopt _ _ (by rw [← hr]; exact hsu) _ (jpaNll_box (w := w) hin hpos)
  rw [← hr] at hv
  obtain ⟨h1, -, h3⟩ := jpaNll_some hv
  rw [jpa_estimate h1 hs hn]
  have hnest : logLik (fun y => distPdf (jonespewsey E) y base) data w
      = logLik (fun y => distPdf (jonespewseyAsym E) y ⟨base.mu, base.kappa, base.psi, 0⟩) data w := by
    unfold logLik
    congr 1
    refine List.ext_getElem (by simp) fun i h1 h2 => ?_
    simp only [List.getElem_zipWith]
    rw [C116_nested E hl m1.1 m1.2 hk hA (hdata _ (List.getElem_mem _))]
  rw [hnest]
  simp only at h3
  linarith

/-- **C109.** When one of the two optimisers reports failure, the asymmetric fit raises RuntimeError. -/
theorem C109_asym_failure (E : JPEnv) (minimize3 : (JP → Option ℝ) → JP → MinResult 3) (minimize4 : (JPA → Option ℝ) → JPA → MinResult 4)
    (rnd : ℝ → ℤ) (data : List ℝ) (hdata : ∀ x ∈ data, RegularAngle x) (weights : Option (List ℝ)) (w : List ℝ)
    (hw : fitWeights data.length weights = .ok w) (kb pb nb : ℝ × ℝ)
    (hfail : (∀ obj start, (minimize3 obj start).success = false) ∨ (∀ obj start, (minimize4 obj start).success = false)) :
    jpaFit E minimize3 minimize4 rnd data weights kb pb nb = .error .runtimeError := by
  have hne : data.length ≠ 0 := fun h0 => by
    obtain ⟨hl, -, hs⟩ := fitWeights_ok hw
    rw [h0] at hl
    rw [List.eq_nil_of_length_eq_zero hl] at hs
    simp at hs
  have hw2 : fitWeights data.length (some w) = .ok w := fitWeights_again hw
  unfold jpaFit
  simp only [map_wrap_regular hdata, hw, bind, Except.bind]
  rw [if_neg hne, jpFit_mle E minimize3 rnd hdata hw2 kb pb rfl rfl]
  generalize hr : minimize3 _ _ = r
  by_cases hs : r.success = true
  · rw [if_pos hs]
    simp only
    rcases hfail with hf | hf
    · have := hf _ _ |>.symm.trans (congrArg MinResult.success hr)
      rw [hs] at this; simp at this
    · simp [hf]
  · rw [if_neg hs]

end Verif
