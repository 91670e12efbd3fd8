import Verif.Props.DistInvBatD
import Verif.Props.LikelihoodC

/-! # Properties C83 and C109 for the inverse Batschelet distribution -/

set_option autoImplicit false

namespace Verif

open Real Verif.Spec

/-! ## Specification -/

/-- The logarithm of the likelihood of the parameters, with the tabulated density. -/
noncomputable def invbatLogLik (data w : List ℝ) (t : InvBat) : ℝ :=
  logLik (fun y => some (tabulatedDensity (invbatGridSize t.kappa t.nu t.lmbd) (invbatCurve t.kappa t.nu t.lmbd) (tabRel y t.xi))) data w

/-- The parameters over which the likelihood is maximised, away from the tolerances of the code and as far as the tables are
accurate. -/
def invbatBox (kb nb lb : ℝ × ℝ) : Set InvBat :=
  {t | (0 ≤ t.xi ∧ t.xi < 2 * π) ∧ (kb.1 ≤ t.kappa ∧ t.kappa ≤ kb.2) ∧ (nb.1 ≤ t.nu ∧ t.nu ≤ nb.2) ∧ (lb.1 ≤ t.lmbd ∧ t.lmbd ≤ lb.2) ∧
    InvBatRegular t.xi t.kappa t.nu t.lmbd ∧ t.kappa ≤ 340}

/-- Every table of the object was built after some history of calls. -/
def TablesOf (solve : (ℝ → ℝ) → Option ℝ) (guess : ℝ → ℝ) (tab : ℝ → ℝ → ℝ → ℕ → ℝ) : Prop :=
  ∀ kappa nu lmbd, ∃ calls : List InvBatCall, (∀ call ∈ calls, RegularCall call) ∧
    tab kappa nu lmbd = (invbatTable solve (invbatHistory solve guess calls) kappa nu lmbd).1

/-! ## Helper lemmas -/

private lemma invbatNll_some {tab : ℝ → ℝ → ℝ → ℕ → ℝ} {kb nb lb : ℝ × ℝ} {x w : List ℝ} {t : InvBat} {v : ℝ}
    (h : invbatNll tab kb nb lb x w t = some v) :
    (0 ≤ t.xi ∧ t.xi ≤ 2 * π) ∧ (kb.1 ≤ t.kappa ∧ t.kappa ≤ kb.2) ∧ (nb.1 ≤ t.nu ∧ t.nu ≤ nb.2) ∧ (lb.1 ≤ t.lmbd ∧ t.lmbd ≤ lb.2) := by
  unfold invbatNll at h
  split_ifs at h <;> tauto

private lemma log_close {c : ℝ} (h : |c - 1| ≤ 5 / 10 ^ 10) : |log c| ≤ 1 / 10 ^ 9 := by
  have hc := abs_le.1 h
  have h10 : (5 : ℝ) / 10 ^ 10 ≤ 1 / 2 := by norm_num
  have hpos : 0 < c := by linarith
  have h1 := log_le_sub_one_of_pos hpos
  have h2 := one_sub_inv_le_log_of_pos hpos
  have h3 : c⁻¹ ≤ 1 + 1 / 10 ^ 9 := by
    rw [inv_le_iff_one_le_mul₀ hpos]
    have : (1 : ℝ) ≤ (1 + 1 / 10 ^ 9) * (1 - 5 / 10 ^ 10) := by norm_num
    refine this.trans (mul_le_mul_of_nonneg_left (by linarith) (by positivity))
  have : (5 : ℝ) / 10 ^ 10 ≤ 1 / 10 ^ 9 := by norm_num
  rw [abs_le]; constructor <;> linarith

private lemma sum_shift (g : ℝ → ℝ) (b : ℝ) : ∀ (x w : List ℝ), w.length = x.length →
    (List.zipWith (fun y wi => wi * (b + g y)) x w).sum = b * w.sum + (List.zipWith (fun y wi => wi * g y) x w).sum
  | [], [], _ => by simp
  | [], _ :: _, h => by simp at h
  | _ :: _, [], h => by simp at h
  | y :: x, v :: w, h => by
    simp only [List.zipWith_cons_cons, List.sum_cons]
    rw [sum_shift g b x w (by simpa using h)]
    ring

private lemma tab_positive {solve : (ℝ → ℝ) → Option ℝ} (hs : FindsRoots solve) {xi kappa nu lmbd : ℝ}
    (h : InvBatRegular xi kappa nu lmbd) (hk : kappa ≤ 340) (phi : ℝ) (h0 : -π ≤ phi) (h1 : phi ≤ π) :
    0 < tabulatedDensity (invbatGridSize kappa nu lmbd) (invbatCurve kappa nu lmbd) phi := by
  obtain ⟨a, c, ha, hc, -, hfa, hft, hpc⟩ := invbat_table_facts hs id (calls := []) (by simp) h hk
  have hN : 0 < invbatGridSize kappa nu lmbd := by have : 512 ≤ invbatGridSize kappa nu lmbd := (tabSize_spec _).1; omega
  obtain ⟨i, -, -, -, hlow, -⟩ := pchip_between (tabGrid_increasing hN)
    (invbatTable solve (invbatHistory solve id []) kappa nu lmbd).1 (x := phi) hN (by rw [tabGrid_zero]; exact h0) (by rw [tabGrid_last hN]; exact h1)
  have ht : 0 < floatTiny := by unfold floatTiny; positivity
  have := ht.trans_le ((le_min (hft i) (hft (i + 1))).trans hlow)
  rw [hpc] at this
  exact pos_of_mul_pos_right this hc.le

private lemma invbatNll_eq {solve : (ℝ → ℝ) → Option ℝ} (hs : FindsRoots solve) {guess : ℝ → ℝ} {tab : ℝ → ℝ → ℝ → ℕ → ℝ}
    (htab : TablesOf solve guess tab) {kb nb lb : ℝ × ℝ} {data w : List ℝ} (hlen : w.length = data.length) (hw0 : 0 ≤ w.sum)
    {t : InvBat} (ht : t ∈ invbatBox kb nb lb) :
    ∃ v, invbatNll tab kb nb lb data w t = some v ∧ |v + invbatLogLik data w t| ≤ 1 / 10 ^ 9 * w.sum := by
  obtain ⟨⟨a0, a1⟩, b, c, d, hreg, hk⟩ := ht
  obtain ⟨calls, hcalls, e⟩ := htab t.kappa t.nu t.lmbd
  obtain ⟨-, m, -, hm, hm1, -, -, hpc⟩ := invbat_table_facts hs guess hcalls hreg hk
  have hk9 := hreg.kappa_mem
  have hk0 : 0 ≤ t.kappa := le_trans (by positivity) hk9.1.le
  have hpos : ∀ y, 0 < tabulatedDensity (invbatGridSize t.kappa t.nu t.lmbd) (invbatCurve t.kappa t.nu t.lmbd) (tabRel y t.xi) :=
    fun y => tab_positive hs hreg hk _ (tabRel_mem _ _).1 (tabRel_mem _ _).2.le
  unfold invbatNll
  rw [if_neg (not_not.2 ⟨a0, a1.le⟩), if_neg (not_not.2 b), if_neg (not_not.2 c), if_neg (not_not.2 d),
    if_neg (by unfold invbatTol; linarith)]
  simp only
  rw [invbat_clip hk0 hk9.2, pymod_eq_self two_pi_pos a0 a1, e]
  simp only [hpc]
  rw [if_neg (by
    push Not
    intro y _
    exact mul_pos hm (hpos y))]
  refine ⟨_, rfl, ?_⟩
  unfold invbatLogLik logLik
  simp only [Option.getD_some]
  have hlog : ∀ y, log (m * tabulatedDensity (invbatGridSize t.kappa t.nu t.lmbd) (invbatCurve t.kappa t.nu t.lmbd) (tabRel y t.xi))
      = log m + log (tabulatedDensity (invbatGridSize t.kappa t.nu t.lmbd) (invbatCurve t.kappa t.nu t.lmbd) (tabRel y t.xi)) :=
    fun y => log_mul hm.ne' (hpos y).ne'
  simp only [hlog]
  rw [sum_shift _ _ _ _ hlen]
  have e2 : ∀ S : ℝ, -(log m * w.sum + S) + S = -(log m * w.sum) := fun S => by ring
  rw [e2, abs_neg, abs_mul, abs_of_nonneg hw0]
  exact mul_le_mul_of_nonneg_right (log_close hm1) hw0

/-- The result of the optimisation: the named optimiser's, or, if that failed and another one can be tried,
the fallback's. -/
private lemma invbatFit_mle {tab : ℝ → ℝ → ℝ → ℕ → ℝ} {minimize : String → (InvBat → Option ℝ) → InvBat → MinResult 4} {lower : String → String}
    {rnd : ℝ → ℤ} {data : List ℝ} (hdata : ∀ x ∈ data, RegularAngle x) {weights : Option (List ℝ)} {method optimizer : String}
    (hmethod : method ≠ "moments") {nuGrid lmbdGrid : Option (List ℝ)} {kb nb lb : ℝ × ℝ} {s : InvBat}
    (h : invbatFit tab minimize lower rnd data weights method optimizer nuGrid lmbdGrid kb nb lb = .ok s) :
    lower method = "mle" ∧ ∃ w, fitWeights data.length weights = .ok w ∧ ∃ name r shape,
      shape = invbatShapeInit (invbatNll tab kb nb lb data w) (nuGrid.getD (invbatGrid nb)) (lmbdGrid.getD (invbatGrid lb))
        (fitMomentStart rnd data w kb).1 (fitMomentStart rnd data w kb).2 ∧
      r = minimize name (invbatNll tab kb nb lb data w) ⟨(fitMomentStart rnd data w kb).1, (fitMomentStart rnd data w kb).2, shape.1, shape.2⟩ ∧
      r.success = true ∧ s = ⟨wrapDirection (r.x 0), clip (r.x 1) kb.1 kb.2, clip (r.x 2) nb.1 nb.2, clip (r.x 3) lb.1 lb.2⟩ := by
  rcases hw : fitWeights data.length weights with e | w
  · unfold invbatFit at h
    simp only [map_wrap_regular hdata, hw, bind, Except.bind] at h
    split_ifs at h
  unfold invbatFit at h
  simp only [map_wrap_regular hdata, hw, bind, Except.bind] at h
  by_cases h0 : data.length = 0
  · rw [if_pos h0] at h; cases h
  rw [if_neg h0, if_neg hmethod] at h
  by_cases hl : lower method ≠ "mle"
  · rw [if_pos hl] at h; cases h
  rw [if_neg hl] at h
  refine ⟨not_not.1 hl, w, rfl, ?_⟩
  obtain ⟨shape, hshape⟩ : ∃ shape, shape = invbatShapeInit (invbatNll tab kb nb lb data w) (nuGrid.getD (invbatGrid nb)) (lmbdGrid.getD (invbatGrid lb))
        (fitMomentStart rnd data w kb).1 (fitMomentStart rnd data w kb).2 := ⟨_, rfl⟩
  obtain ⟨st, hst⟩ : ∃ st : InvBat, st = ⟨(fitMomentStart rnd data w kb).1, (fitMomentStart rnd data w kb).2, shape.1, shape.2⟩ := ⟨_, rfl⟩
  have hst' := hst
  rw [hshape] at hst'
  unfold fitMomentStart at hst'
  simp only at hst'
  rw [← hst'] at h
  by_cases c1 : (minimize optimizer (invbatNll tab kb nb lb data w) st).success = false ∧ optimizer ≠ "Powell"
  · rw [if_pos c1] at h
    by_cases c2 : (minimize "Powell" (invbatNll tab kb nb lb data w) st).success = true
    · rw [if_pos c2, if_neg (by simp [c2])] at h
      exact ⟨"Powell", _, shape, hshape, by rw [← hst], c2, (Except.ok.inj h).symm⟩
    · rw [if_neg c2, if_pos c1.1] at h
      cases h
  · rw [if_neg c1] at h
    by_cases c2 : (minimize optimizer (invbatNll tab kb nb lb data w) st).success = false
    · rw [if_pos c2] at h
      cases h
    · rw [if_neg c2] at h
      exact ⟨optimizer, _, shape, hshape, by rw [← hst], by simpa using c2, (Except.ok.inj h).symm⟩

private lemma invbatFit_moments {tab : ℝ → ℝ → ℝ → ℕ → ℝ} {minimize : String → (InvBat → Option ℝ) → InvBat → MinResult 4} {lower : String → String}
    {rnd : ℝ → ℤ} {data : List ℝ} (hdata : ∀ x ∈ data, RegularAngle x) {weights : Option (List ℝ)} {optimizer : String}
    {nuGrid lmbdGrid : Option (List ℝ)} {kb nb lb : ℝ × ℝ} {s : InvBat}
    (h : invbatFit tab minimize lower rnd data weights "moments" optimizer nuGrid lmbdGrid kb nb lb = .ok s) :
    ∃ w, fitWeights data.length weights = .ok w ∧ s = ⟨(fitMomentStart rnd data w kb).1, (fitMomentStart rnd data w kb).2, 0, 0⟩ := by
  unfold invbatFit at h
  simp only [map_wrap_regular hdata, bind, Except.bind] at h
  rcases hw : fitWeights data.length weights with e | w
  · rw [hw] at h
    split_ifs at h
  · rw [hw] at h
    simp only [if_true] at h
    split_ifs at h
    cases h
    exact ⟨w, rfl, rfl⟩

/-! ## C83 -/

/-- **C83.** Estimates of the inverse Batschelet family are accepted by its own methods, whatever the optimiser does and whatever the
tables contain. -/
theorem C83_invbat (tab : ℝ → ℝ → ℝ → ℕ → ℝ) (minimize : String → (InvBat → Option ℝ) → InvBat → MinResult 4) (lower : String → String)
    (rnd : ℝ → ℤ) (data : List ℝ) (hdata : ∀ x ∈ data, RegularAngle x) (weights : Option (List ℝ)) (method optimizer : String)
    (nuGrid lmbdGrid : Option (List ℝ)) (kb nb lb : ℝ × ℝ) (hk0 : 0 ≤ kb.1) (hkb : kb.1 ≤ kb.2) (hn0 : -1 ≤ nb.1) (hnb : nb.1 ≤ nb.2)
    (hn1 : nb.2 ≤ 1) (hl0 : -1 ≤ lb.1) (hlb : lb.1 ≤ lb.2) (hl1 : lb.2 ≤ 1) (s : InvBat)
    (h : invbatFit tab minimize lower rnd data weights method optimizer nuGrid lmbdGrid kb nb lb = .ok s) :
    (0 ≤ s.xi ∧ s.xi ≤ 2 * π) ∧ (kb.1 ≤ s.kappa ∧ s.kappa ≤ kb.2) ∧ ((nb.1 ≤ s.nu ∧ s.nu ≤ nb.2) ∨ s.nu = 0) ∧
      ((lb.1 ≤ s.lmbd ∧ s.lmbd ≤ lb.2) ∨ s.lmbd = 0) ∧ invbatArgcheck s := by
  have key : (0 ≤ s.xi ∧ s.xi ≤ 2 * π) ∧ (kb.1 ≤ s.kappa ∧ s.kappa ≤ kb.2) ∧ ((nb.1 ≤ s.nu ∧ s.nu ≤ nb.2) ∨ s.nu = 0) ∧
      ((lb.1 ≤ s.lmbd ∧ s.lmbd ≤ lb.2) ∨ s.lmbd = 0) := by
    by_cases hm : method = "moments"
    · subst hm
      obtain ⟨w, -, rfl⟩ := invbatFit_moments hdata h
      obtain ⟨m1, m2⟩ := fitStart_range data w
      exact ⟨⟨m1, m2.le⟩, clip_mem hkb, Or.inr rfl, Or.inr rfl⟩
    · obtain ⟨-, w, -, name, r, shape, -, -, -, rfl⟩ := invbatFit_mle hdata hm h
      exact ⟨wrap2pi_mem _, clip_mem hkb, Or.inl (clip_mem hnb), Or.inl (clip_mem hlb)⟩
  obtain ⟨h1, h2, h3, h4⟩ := key
  refine ⟨h1, h2, h3, h4, h1.1, h1.2, hk0.trans h2.1, ?_, ?_, ?_, ?_⟩
  · rcases h3 with h3 | h3
    · exact hn0.trans h3.1
    · rw [h3]; norm_num
  · rcases h3 with h3 | h3
    · exact h3.2.trans hn1
    · rw [h3]; norm_num
  · rcases h4 with h4 | h4
    · exact hl0.trans h4.1
    · rw [h4]; norm_num
  · rcases h4 with h4 | h4
    · exact h4.2.trans hl1
    · rw [h4]; norm_num

/-! ## C109 -/

private lemma est_eq {kb nb lb : ℝ × ℝ} {r : MinResult 4} (hs : wrapDirection (r.x 0) ≠ 2 * π) (h0 : 0 ≤ r.x 0 ∧ r.x 0 ≤ 2 * π)
    (h1 : kb.1 ≤ r.x 1 ∧ r.x 1 ≤ kb.2) (h2 : nb.1 ≤ r.x 2 ∧ r.x 2 ≤ nb.2) (h3 : lb.1 ≤ r.x 3 ∧ r.x 3 ≤ lb.2) :
    r.x 0 < 2 * π ∧ (⟨wrapDirection (r.x 0), clip (r.x 1) kb.1 kb.2, clip (r.x 2) nb.1 nb.2, clip (r.x 3) lb.1 lb.2⟩ : InvBat)
      = ⟨r.x 0, r.x 1, r.x 2, r.x 3⟩ := by
  have hw1 : wrapDirection (r.x 0) = pymod (r.x 0) (2 * π) := far_of_ne hs
  have hlt : r.x 0 < 2 * π := by
    rcases h0.2.lt_or_eq with h | h
    · exact h
    · exfalso
      refine hs (wrap2pi_close ?_)
      rw [h, sub_self, abs_zero]
      exact wrapTol_pos.le
  rw [pymod_eq_self two_pi_pos h0.1 hlt] at hw1
  refine ⟨hlt, ?_⟩
  rw [hw1]
  unfold clip
  rw [max_eq_left h1.1, min_eq_left h1.2, max_eq_left h2.1, min_eq_left h2.2, max_eq_left h3.1, min_eq_left h3.2]

/-- **C109.** Inverse Batschelet: if a successful optimiser (the named one, or the fallback) returns a minimum of its objective, the
estimate maximises the weighted likelihood of the tabulated density within the bounds, up to `2e-9` per unit of weight,
whatever was computed before on the object. -/
theorem C109_invbat (solve : (ℝ → ℝ) → Option ℝ) (hsolve : FindsRoots solve) (guess : ℝ → ℝ) (tab : ℝ → ℝ → ℝ → ℕ → ℝ)
    (htab : TablesOf solve guess tab) (minimize : String → (InvBat → Option ℝ) → InvBat → MinResult 4)
    (hopt : ∀ name obj start, (minimize name obj start).success = true →
      IsMinimum obj ⟨(minimize name obj start).x 0, (minimize name obj start).x 1, (minimize name obj start).x 2, (minimize name obj start).x 3⟩)
    (lower : String → String) (rnd : ℝ → ℤ) (data : List ℝ) (hdata : ∀ x ∈ data, RegularAngle x) (weights : Option (List ℝ))
    (method optimizer : String) (hmethod : method ≠ "moments") (nuGrid lmbdGrid : Option (List ℝ)) (kb nb lb : ℝ × ℝ) (s : InvBat)
    (h : invbatFit tab minimize lower rnd data weights method optimizer nuGrid lmbdGrid kb nb lb = .ok s) (hs : s.xi ≠ 2 * π)
    (hreg : InvBatRegular s.xi s.kappa s.nu s.lmbd) (hk : s.kappa ≤ 340) :
    s ∈ invbatBox kb nb lb ∧ ∀ t ∈ invbatBox kb nb lb,
      invbatLogLik data (fullWeights data.length weights) t ≤ invbatLogLik data (fullWeights data.length weights) s
        + 2 / 10 ^ 9 * (fullWeights data.length weights).sum := by
  obtain ⟨-, w, hw, name, r, shape, -, hr, hsu, rfl⟩ := invbatFit_mle hdata hmethod h
  rw [fitWeights_full hw]
  obtain ⟨hlen, -, hsum⟩ := fitWeights_ok hw
  obtain ⟨v, hv, hmin⟩ := hopt name _ _ (by rw [← hr]; exact hsu)
  rw [← hr] at hv
  obtain ⟨h0, h1, h2, h3⟩ := invbatNll_some hv
  obtain ⟨hlt, hest⟩ := est_eq hs h0 h1 h2 h3
  rw [hest] at hreg hk ⊢
  have hbox : (⟨r.x 0, r.x 1, r.x 2, r.x 3⟩ : InvBat) ∈ invbatBox kb nb lb := ⟨⟨h0.1, hlt⟩, h1, h2, h3, hreg, hk⟩
  refine ⟨hbox, fun t ht => ?_⟩
  obtain ⟨v', hv', hc'⟩ := invbatNll_eq hsolve htab hlen hsum.le hbox
  obtain ⟨u, hu, hcu⟩ := invbatNll_eq hsolve htab hlen hsum.le ht
  rw [hv] at hv'
  have e := Option.some.inj hv'
  have e1 := hmin t u hu
  have a1 := abs_le.1 hc'
  have a2 := abs_le.1 hcu
  rw [← e] at a1
  linarith [a1.1, a1.2, a2.1, a2.2]

/-- **C109.** Inverse Batschelet: if a successful optimiser returns a minimum of its objective and the bounds allow a
concentration that the code treats as uniform, the estimate is at least as likely (up to `1e-9` per unit of weight) as the
uniform distribution. -/
theorem C109_invbat_uniform (solve : (ℝ → ℝ) → Option ℝ) (hsolve : FindsRoots solve) (guess : ℝ → ℝ) (tab : ℝ → ℝ → ℝ → ℕ → ℝ)
    (htab : TablesOf solve guess tab) (minimize : String → (InvBat → Option ℝ) → InvBat → MinResult 4)
    (hopt : ∀ name obj start, (minimize name obj start).success = true →
      IsMinimum obj ⟨(minimize name obj start).x 0, (minimize name obj start).x 1, (minimize name obj start).x 2, (minimize name obj start).x 3⟩)
    (lower : String → String) (rnd : ℝ → ℤ) (data : List ℝ) (hdata : ∀ x ∈ data, RegularAngle x) (weights : Option (List ℝ))
    (method optimizer : String) (hmethod : method ≠ "moments") (nuGrid lmbdGrid : Option (List ℝ)) (kb nb lb : ℝ × ℝ) (s : InvBat)
    (h : invbatFit tab minimize lower rnd data weights method optimizer nuGrid lmbdGrid kb nb lb = .ok s) (hs : s.xi ≠ 2 * π)
    (hreg : InvBatRegular s.xi s.kappa s.nu s.lmbd) (hk : s.kappa ≤ 340) (hkb : kb.1 ≤ 1 / 10 ^ 9) :
    -log (2 * π) * (fullWeights data.length weights).sum ≤ invbatLogLik data (fullWeights data.length weights) s
        + 1 / 10 ^ 9 * (fullWeights data.length weights).sum := by
  obtain ⟨-, w, hw, name, r, shape, -, hr, hsu, rfl⟩ := invbatFit_mle hdata hmethod h
  rw [fitWeights_full hw]
  obtain ⟨hlen, -, hsum⟩ := fitWeights_ok hw
  obtain ⟨v, hv, hmin⟩ := hopt name _ _ (by rw [← hr]; exact hsu)
  rw [← hr] at hv
  obtain ⟨h0, h1, h2, h3⟩ := invbatNll_some hv
  obtain ⟨hlt, hest⟩ := est_eq hs h0 h1 h2 h3
  rw [hest] at hreg hk ⊢
  have hbox : (⟨r.x 0, r.x 1, r.x 2, r.x 3⟩ : InvBat) ∈ invbatBox kb nb lb := ⟨⟨h0.1, hlt⟩, h1, h2, h3, hreg, hk⟩
  obtain ⟨v', hv', hc'⟩ := invbatNll_eq hsolve htab hlen hsum.le hbox
  rw [hv] at hv'
  have e := Option.some.inj hv'
  have hu : invbatNll tab kb nb lb data w ⟨r.x 0, kb.1, r.x 2, r.x 3⟩ = some (log (2 * π) * w.sum) := by
    unfold invbatNll
    rw [if_neg (not_not.2 h0), if_neg (not_not.2 ⟨le_refl _, h1.1.trans h1.2⟩), if_neg (not_not.2 h2), if_neg (not_not.2 h3),
      if_pos (by unfold invbatTol; exact hkb), List.sum_map_mul_right, List.map_id']
    congr 1
    ring
  have e1 := hmin _ _ hu
  have a1 := abs_le.1 hc'
  rw [← e] at a1
  linarith [a1.1, a1.2]

/-- **C109.** When the named optimiser and the fallback report failure, the fit raises RuntimeError. -/
theorem C109_invbat_failure (tab : ℝ → ℝ → ℝ → ℕ → ℝ) (minimize : String → (InvBat → Option ℝ) → InvBat → MinResult 4) (lower : String → String)
    (rnd : ℝ → ℤ) (hopt : ∀ name obj start, (minimize name obj start).success = false) (data : List ℝ) (hne : data ≠ []) (weights : Option (List ℝ))
    (w : List ℝ) (hw : fitWeights data.length weights = .ok w) (method optimizer : String) (hmethod : method ≠ "moments") (hl : lower method = "mle")
    (nuGrid lmbdGrid : Option (List ℝ)) (kb nb lb : ℝ × ℝ) :
    invbatFit tab minimize lower rnd data weights method optimizer nuGrid lmbdGrid kb nb lb = .error .runtimeError := by
  unfold invbatFit
  simp only [List.length_map, hw, bind, Except.bind]
  rw [if_neg (by simpa using hne), if_neg hmethod, if_neg (by simp [hl])]
  simp [hopt]

/-- **C109.** Inverse Batschelet: if the optimisers never end at a point worse than the start, the maximum likelihood estimate is
at least as likely (up to `2e-9` per unit of weight) as the moment estimate, with `nu` and `lmbd` zero or any candidates of the grids. -/
theorem C109_invbat_improves (solve : (ℝ → ℝ) → Option ℝ) (hsolve : FindsRoots solve) (guess : ℝ → ℝ) (tab : ℝ → ℝ → ℝ → ℕ → ℝ)
    (htab : TablesOf solve guess tab) (minimize : String → (InvBat → Option ℝ) → InvBat → MinResult 4)
    (hopt : ∀ name obj start, (minimize name obj start).success = true → NotWorse obj start
      ⟨(minimize name obj start).x 0, (minimize name obj start).x 1, (minimize name obj start).x 2, (minimize name obj start).x 3⟩)
    (lower : String → String) (rnd : ℝ → ℤ) (data : List ℝ) (hdata : ∀ x ∈ data, RegularAngle x) (weights : Option (List ℝ))
    (optimizer : String) (ngrid lgrid : List ℝ) (kb nb lb : ℝ × ℝ) (s0 s : InvBat)
    (h0 : invbatFit tab minimize lower rnd data weights "moments" optimizer (some ngrid) (some lgrid) kb nb lb = .ok s0)
    (h : invbatFit tab minimize lower rnd data weights "mle" optimizer (some ngrid) (some lgrid) kb nb lb = .ok s) (hs : s.xi ≠ 2 * π)
    (hreg : InvBatRegular s.xi s.kappa s.nu s.lmbd) (hk : s.kappa ≤ 340)
    (n l : ℝ) (hn : n = 0 ∨ n ∈ ngrid) (hl : l = 0 ∨ l ∈ lgrid) (hbox0 : (⟨s0.xi, s0.kappa, n, l⟩ : InvBat) ∈ invbatBox kb nb lb) :
    invbatLogLik data (fullWeights data.length weights) ⟨s0.xi, s0.kappa, n, l⟩
      ≤ invbatLogLik data (fullWeights data.length weights) s + 2 / 10 ^ 9 * (fullWeights data.length weights).sum := by
  obtain ⟨-, w, hw, name, r, shape, hshape, hr, hsu, rfl⟩ := invbatFit_mle hdata (by simp) h
  obtain ⟨w', hw', e0⟩ := invbatFit_moments hdata h0
  rw [hw] at hw'
  have hww := Except.ok.inj hw'
  rw [← hww] at e0
  rw [fitWeights_full hw]
  obtain ⟨hlen, -, hsum⟩ := fitWeights_ok hw
  have hs1 : (fitMomentStart rnd data w kb).1 = s0.xi := by rw [e0]
  have hs2 : (fitMomentStart rnd data w kb).2 = s0.kappa := by rw [e0]
  rw [hs1, hs2] at hr hshape
  obtain ⟨v0, hv0, hc0⟩ := invbatNll_eq hsolve htab hlen hsum.le hbox0
  simp only [Option.getD_some] at hshape
  have hmem : ∀ (c : ℝ) (g : List ℝ), (c = 0 ∨ c ∈ g) → c ∈ uniqueWithZero g := fun c g hc => by
    refine List.mem_dedup.2 (List.mem_mergeSort.2 ?_)
    rcases hc with rfl | hc
    · exact List.mem_cons_self
    · exact List.mem_cons_of_mem _ hc
  obtain ⟨u, hu, huv⟩ := grid_best (fun c : ℝ × ℝ => invbatNll tab kb nb lb data w ⟨s0.xi, s0.kappa, c.1, c.2⟩)
    ((uniqueWithZero ngrid).flatMap fun n => (uniqueWithZero lgrid).map fun l => (n, l)) (0, 0) (n, l) (by
      refine List.mem_cons_of_mem _ (List.mem_flatMap.2 ⟨n, hmem n _ hn, List.mem_map.2 ⟨l, hmem l _ hl, rfl⟩⟩)) _ hv0
  have hu' : invbatNll tab kb nb lb data w ⟨s0.xi, s0.kappa, shape.1, shape.2⟩ = some u := by
    rw [hshape]; exact hu
  obtain ⟨v, hv1, hv2⟩ := hopt name (invbatNll tab kb nb lb data w) _ (by rw [← hr]; exact hsu) u hu'
  rw [← hr] at hv1
  obtain ⟨h0, h1, h2, h3⟩ := invbatNll_some hv1
  obtain ⟨hlt, hest⟩ := est_eq hs h0 h1 h2 h3
  rw [hest] at hreg hk ⊢
  have hbox : (⟨r.x 0, r.x 1, r.x 2, r.x 3⟩ : InvBat) ∈ invbatBox kb nb lb := ⟨⟨h0.1, hlt⟩, h1, h2, h3, hreg, hk⟩
  obtain ⟨v', hv', hc'⟩ := invbatNll_eq hsolve htab hlen hsum.le hbox
  rw [hv1] at hv'
  have e := Option.some.inj hv'
  have a1 := abs_le.1 hc'
  have a2 := abs_le.1 hc0
  rw [← e] at a1
  linarith [a1.1, a1.2, a2.1, a2.2]

/-- **C109.** The names of the methods: `"moments"` only in lower case, `"mle"` in any case. -/
theorem C109_invbat_method (tab : ℝ → ℝ → ℝ → ℕ → ℝ) (minimize : String → (InvBat → Option ℝ) → InvBat → MinResult 4)
    (lower : String → String) (hlM : lower "Moments" = "moments") (hlL : lower "MLE" = "mle") (hll : lower "mle" = "mle") (rnd : ℝ → ℤ) (data : List ℝ) (hne : data ≠ []) (weights : Option (List ℝ)) (w : List ℝ)
    (hw : fitWeights data.length weights = .ok w) (optimizer : String) (nuGrid lmbdGrid : Option (List ℝ)) (kb nb lb : ℝ × ℝ) :
    (∃ s, invbatFit tab minimize lower rnd data weights "moments" optimizer nuGrid lmbdGrid kb nb lb = .ok s ∧ s.nu = 0 ∧ s.lmbd = 0) ∧
      invbatFit tab minimize lower rnd data weights "Moments" optimizer nuGrid lmbdGrid kb nb lb = .error .valueError ∧
      invbatFit tab minimize lower rnd data weights "MLE" optimizer nuGrid lmbdGrid kb nb lb
        = invbatFit tab minimize lower rnd data weights "mle" optimizer nuGrid lmbdGrid kb nb lb := by
  have e1 : lower "Moments" ≠ "mle" := by rw [hlM]; decide
  have hl : data.length ≠ 0 := by simpa using hne
  unfold invbatFit
  simp only [List.length_map, hw, bind, Except.bind, if_neg hl]
  refine ⟨⟨_, rfl, rfl, rfl⟩, ?_, ?_⟩
  · rw [if_neg (show ¬ "Moments" = "moments" by decide), if_pos e1]
  · rw [if_neg (show ¬ "MLE" = "moments" by decide), if_neg (show ¬ "mle" = "moments" by decide), if_neg (not_not.2 hlL), if_neg (not_not.2 hll)]

/-! ## A concrete case -/

private lemma tabSize_even (a : ℝ) : Even (tabSize a) := by
  unfold tabSize
  simp only
  split_ifs with h
  · rw [Nat.even_iff]; omega
  · rw [Nat.even_iff]; omega

open Classical in
private noncomputable def exampleMin4 (obj : InvBat → Option ℝ) : MinResult 4 :=
  if IsMinimum obj ⟨1, 1, 0, 0⟩ then ⟨true, ![1, 1, 0, 0]⟩ else ⟨false, 0⟩

private lemma exampleMin4_spec (obj : InvBat → Option ℝ) (h : (exampleMin4 obj).success = true) :
    IsMinimum obj ⟨(exampleMin4 obj).x 0, (exampleMin4 obj).x 1, (exampleMin4 obj).x 2, (exampleMin4 obj).x 3⟩ := by
  unfold exampleMin4 at *
  split_ifs at * with c
  exact c

/-- C109 for one observation at 1, `kappa = 1` and `nu = lmbd = 0` given, on a fresh object: the estimated direction is 1, and
the hypotheses hold. -/
example (solve : (ℝ → ℝ) → Option ℝ) (hsolve : FindsRoots solve) (rnd : ℝ → ℤ) :
    ∀ t ∈ invbatBox (1, 1) (0, 0) (0, 0), invbatLogLik [1] (fullWeights 1 none) t
      ≤ invbatLogLik [1] (fullWeights 1 none) ⟨1, 1, 0, 0⟩ + 2 / 10 ^ 9 * (fullWeights 1 none).sum := by
  have hw : fitWeights [(1 : ℝ)].length none = .ok [1] := by simp [fitWeights]
  have hr1 : RegularAngle 1 := ⟨by norm_num, Or.inl (by linarith [pi_gt_three, show (1 : ℝ) / 10 ^ 14 ≤ 1 by norm_num])⟩
  have wrap_one : wrapDirection 1 = 1 := regular_wrap hr1
  have hregd : ∀ x ∈ [(1 : ℝ)], RegularAngle x := by simpa using hr1
  have hreg : InvBatRegular 1 1 0 0 := ⟨⟨by norm_num, by linarith [pi_gt_three]⟩, ⟨by norm_num, by norm_num⟩, by norm_num, Or.inl rfl,
    by norm_num, Or.inr (by norm_num), Or.inr (by norm_num)⟩
  obtain ⟨tab, htabdef⟩ : ∃ tab : ℝ → ℝ → ℝ → ℕ → ℝ, tab = fun k n l => (invbatTable solve (invbatHistory solve id []) k n l).1 := ⟨_, rfl⟩
  obtain ⟨a, c, ha, hc, -, hf, -, -⟩ := invbat_table_facts hsolve id (calls := []) (by simp) hreg (by norm_num)
  have htab1 : ∀ j, tab 1 0 0 j = a * invbatCurve 1 0 0 (tabGrid (invbatGridSize 1 0 0) j) := by rw [htabdef]; exact hf
  have hNs : 512 ≤ invbatGridSize 1 0 0 := (tabSize_spec _).1
  have hev : Even (invbatGridSize 1 0 0) := tabSize_even _
  have hclip : clip (1 : ℝ) 0 invbatUpper = 1 := invbat_clip (by norm_num) hreg.kappa_mem.2
  have hnll : ∀ t : InvBat, ∀ v, invbatNll tab (1, 1) (0, 0) (0, 0) [1] [1] t = some v →
      v = -log (pchip (invbatGridSize 1 0 0) (tabGrid (invbatGridSize 1 0 0)) (tab 1 0 0) (tabRel 1 (pymod t.xi (2 * π)))) ∧
      0 < pchip (invbatGridSize 1 0 0) (tabGrid (invbatGridSize 1 0 0)) (tab 1 0 0) (tabRel 1 (pymod t.xi (2 * π))) := by
    intro t v hv
    obtain ⟨-, h1, h2, h3⟩ := invbatNll_some hv
    have ht : t = ⟨t.xi, 1, 0, 0⟩ := by
      rcases t with ⟨a, b, c, d⟩
      simp only at h1 h2 h3
      rw [le_antisymm h1.2 h1.1, le_antisymm h2.2 h2.1, le_antisymm h3.2 h3.1]
    rw [ht] at hv
    unfold invbatNll at hv
    have hx : 0 ≤ t.xi ∧ t.xi ≤ 2 * π := by
      by_contra hx
      rw [if_pos hx] at hv
      cases hv
    rw [if_neg (not_not.2 hx), if_neg (by norm_num), if_neg (by norm_num), if_neg (by norm_num), if_neg (by unfold invbatTol; norm_num)] at hv
    simp only [hclip] at hv
    split_ifs at hv with g
    simp only [List.mem_singleton, exists_eq_left, not_le] at g
    simp at hv
    exact ⟨hv.symm, g⟩
  generalize hNN : invbatGridSize 1 0 0 = N at *
  have hN : 0 < N := by omega
  have hmid : tabGrid N (N / 2) = 0 := by
    obtain ⟨m, hm⟩ := hev
    have e : N / 2 = m := by omega
    have hm0 : (m : ℝ) ≠ 0 := by
      have : m ≠ 0 := by omega
      exact_mod_cast this
    rw [e]
    unfold tabGrid
    rw [hm]
    push_cast
    field_simp
    ring
  have hle : ∀ j, tab 1 0 0 j ≤ a * exp 1 := by
    intro j
    rw [htab1]
    refine mul_le_mul_of_nonneg_left ?_ ha.le
    unfold invbatCurve invbatShape
    exact exp_le_exp.2 (by linarith [cos_le_one (Function.invFun (invbatAngle 0 0) (tabGrid N j) - (1 - 0) / 2 * sin (Function.invFun (invbatAngle 0 0) (tabGrid N j)))])
  have htop : tab 1 0 0 (N / 2) = a * exp 1 := by
    have e : Function.invFun (invbatAngle 0 0) 0 = 0 := by
      have h := Function.leftInverse_invFun (invbatAngle_strictMono (nu := 0) (lmbd := 0) (by norm_num) (by norm_num)).injective 0
      have h0 : invbatAngle 0 0 0 = 0 := by unfold invbatAngle; simp
      rwa [h0] at h
    rw [htab1, hmid]
    unfold invbatCurve invbatShape
    rw [e]
    simp
  have hbest : ∀ phi, -π ≤ phi → phi ≤ π → pchip N (tabGrid N) (tab 1 0 0) phi ≤ a * exp 1 := by
    intro phi h0 h1
    obtain ⟨i, -, -, -, -, hu⟩ := pchip_between (tabGrid_increasing hN) (tab 1 0 0) (x := phi) hN (by rw [tabGrid_zero]; exact h0)
      (by rw [tabGrid_last hN]; exact h1)
    exact hu.trans (max_le (hle _) (hle _))
  have hpm : pymod 1 (2 * π) = 1 := pymod_eq_self two_pi_pos (by norm_num) (by linarith [pi_gt_three])
  have hrel : tabRel 1 1 = 0 := by
    unfold tabRel
    rw [show (1 : ℝ) - 1 + π = π by ring, pymod_eq_self two_pi_pos pi_pos.le (by linarith [pi_pos])]
    ring
  have hat : pchip N (tabGrid N) (tab 1 0 0) 0 = a * exp 1 := by
    have := pchip_node hN (tabGrid_increasing hN) (tab 1 0 0) (i := N / 2) (by omega)
    rwa [hmid, htop] at this
  have hpos : 0 < a * exp 1 := by positivity
  have hmin : IsMinimum (invbatNll tab (1, 1) (0, 0) (0, 0) [1] [1]) ⟨1, 1, 0, 0⟩ := by
    refine ⟨-log (a * exp 1), ?_, fun t u hu => ?_⟩
    · unfold invbatNll
      rw [if_neg (not_not.2 ⟨by norm_num, by linarith [pi_gt_three]⟩), if_neg (by norm_num), if_neg (by norm_num), if_neg (by norm_num),
        if_neg (by unfold invbatTol; norm_num)]
      simp only [hclip, hpm, hNN]
      rw [if_neg (by
        simp only [List.mem_singleton, exists_eq_left, not_le]
        rw [hrel, hat]
        exact hpos)]
      simp only [List.zipWith_cons_cons, List.zipWith_nil_left, List.sum_cons, List.sum_nil, one_mul, add_zero]
      rw [hrel, hat]
    · obtain ⟨e1, e2⟩ := hnll t u hu
      rw [e1]
      have hm := tabRel_mem 1 (pymod t.xi (2 * π))
      have := log_le_log e2 (hbest _ hm.1 hm.2.le)
      linarith
  have hfit : invbatFit tab (fun _ obj _ => exampleMin4 obj) id rnd [1] none "mle" "L-BFGS-B" none none (1, 1) (0, 0) (0, 0)
      = .ok ⟨1, 1, 0, 0⟩ := by
    unfold invbatFit
    simp only [map_wrap_regular hregd, hw, bind, Except.bind]
    unfold exampleMin4
    rw [if_pos hmin]
    simp [wrap_one, clip]
  exact (C109_invbat solve hsolve id tab (fun k n l => ⟨[], by simp, by rw [htabdef]⟩) _ (fun _ obj _ h => exampleMin4_spec obj h) id rnd [1] hregd none
    "mle" "L-BFGS-B" (by decide) none none (1, 1) (0, 0) (0, 0) _ hfit (by show (1 : ℝ) ≠ 2 * π; linarith [pi_gt_three]) hreg (by norm_num)).2

end Verif
