import Verif.Props.ClusterMethod

/-!
# A default mixture whose likelihood falls
-/

namespace Verif.Props

open Real
open Verif.Spec

set_option autoImplicit false

private lemma wrap2pi_pi : wrap2pi π = π := by
  refine wrap2pi_self pi_pos.le ?_
  have := wrapTol_lt; have := pi_gt_three
  have : (1 : ℝ) / 10 ^ 14 < 1 := by norm_num
  linarith

/-- The method-of-moments cardioid estimate for data whose moment is the real number `c`. -/
private lemma cardMom {minimize : (ℝ → ℝ → Option ℝ) → (ℝ → ℝ → ℝ × ℝ) → ℝ × ℝ → MinResult 2} {data w : List ℝ} {c : ℝ}
    (hx : data.map wrap2pi = data) (hd : data ≠ []) (hw : w.length = data.length) (h0 : ∀ v ∈ w, 0 ≤ v) (hs : 0 < w.sum)
    (hm : moment data w 1 = (c : ℂ)) (hc1 : |c| ≤ 1 / 2) :
    cardFit minimize data (some w) "moments" =
      .ok (if |c| ≤ 1 / 10 ^ 12 then 0 else if 0 < c then 0 else π, |c|) := by
  have hfw : fitWeights data.length (some w) = .ok w := by
    unfold fitWeights
    simp only
    rw [if_neg (by push Not; exact h0), show broadcastTo data.length w = some w from ?_]
    · simp only
      rw [if_neg (not_le.2 hs)]
    · unfold broadcastTo
      rw [if_pos hw]
  have hnorm : ‖moment data w 1‖ = |c| := by rw [hm, Complex.norm_real, Real.norm_eq_abs]
  have hfs : fitStart data w = (if |c| ≤ 1 / 10 ^ 12 then 0 else if 0 < c then 0 else π, |c|) := by
    unfold fitStart
    rw [circMeanAndR_eq, if_neg hs.ne', hnorm]
    by_cases h : |c| ≤ 1 / 10 ^ 12
    · rw [if_pos h, if_pos h]
      simp [pymod]
    · rw [if_neg h, if_neg h]
      simp only [Option.getD_some]
      by_cases hc : 0 < c
      · rw [if_pos hc, hm, Complex.arg_ofReal_of_nonneg hc.le, angmod2pi_eq_self le_rfl two_pi_pos]
        simp [pymod]
      · have hneg : c < 0 := by
          rcases lt_trichotomy c 0 with h' | h' | h'
          · exact h'
          · exfalso; apply h; rw [h', abs_zero]; positivity
          · exact absurd h' hc
        rw [if_neg hc, hm, Complex.arg_ofReal_of_neg hneg,
          angmod2pi_eq_self pi_pos.le (by linarith [pi_pos]), pymod_eq_self two_pi_pos pi_pos.le (by linarith [pi_pos])]
  have hl0 : data.length ≠ 0 := fun h => hd (List.length_eq_zero_iff.1 h)
  have hcl : clip |c| 0 (1 / 2) = |c| := by
    unfold clip
    rw [max_eq_left (abs_nonneg c), min_eq_left hc1]
  have hwd : wrapDirection (if |c| ≤ 1 / 10 ^ 12 then 0 else if 0 < c then 0 else π) =
      if |c| ≤ 1 / 10 ^ 12 then 0 else if 0 < c then 0 else π := by
    unfold wrapDirection
    split_ifs
    · exact wrap2pi_zero
    · exact wrap2pi_zero
    · exact wrap2pi_pi
  unfold cardFit
  simp only [hx, if_neg hl0, hfw, bind, Except.bind, hfs, hcl, hwd]
  simp

/-- The observations 0°, 180°, 0°, 0°, 180°, 180°, 180°. -/
private noncomputable def obs : Fin 7 → ℝ := ![0, 180, 0, 0, 180, 180, 180]

private def lab : Fin 7 → Fin 2 := ![0, 0, 1, 1, 1, 1, 1]

private noncomputable def ang : Fin 7 → ℝ := ![0, π, 0, 0, π, π, π]

private lemma ang_eq : (fun i => toRad "degree" 360 (obs i)) = ang := by
  funext i
  have h : toRad "degree" 360 180 = π := by
    rw [toRad, if_neg (by decide), data2rad]; ring
  have h' : toRad "degree" 360 0 = 0 := by
    rw [toRad, if_neg (by decide), data2rad]; ring
  fin_cases i <;> simp [obs, ang, h, h']

private noncomputable def wts (u v : ℝ) : Fin 7 → ℝ := ![u, v, u, u, v, v, v]

private lemma ofFn_ang : List.ofFn ang = [0, π, 0, 0, π, π, π] := by
  simp [ang, List.ofFn_succ, Fin.succ]

private lemma ofFn_wts (u v : ℝ) : List.ofFn (wts u v) = [u, v, u, u, v, v, v] := by
  simp [wts, List.ofFn_succ]

private lemma moment_wts (u v : ℝ) (h : 3 * u + 4 * v ≠ 0) :
    moment [0, π, 0, 0, π, π, π] [u, v, u, u, v, v, v] 1 = (((3 * u - 4 * v) / (3 * u + 4 * v) : ℝ) : ℂ) := by
  have e : (u + (v + (u + (u + (v + (v + v))))) : ℂ) = ((3 * u + 4 * v : ℝ) : ℂ) := by push_cast; ring
  simp only [moment, expSum, List.zipWith_cons_cons, List.zipWith_nil_right, List.sum_cons, List.sum_nil]
  push_cast
  simp only [Complex.exp_pi_mul_I, mul_zero, zero_mul, Complex.exp_zero, one_mul, add_zero]
  rw [e]
  push_cast
  congr 1
  ring

private lemma plog {mu rho x v : ℝ} (hmu : mu = 0 ∨ mu = π) (hx : x = 0 ∨ x = π) (h0 : 0 ≤ rho) (h1 : rho < 1 / 2)
    (hv : v = (1 + 2 * rho * cos (x - mu)) / 2 / π) (hv0 : 0 < v) : pairLogpdf cardioid [mu, rho] x = log v := by
  have hp := pi_pos
  have hw : wrap2pi x = x := by rcases hx with rfl | rfl; exacts [wrap2pi_zero, wrap2pi_pi]
  have hac : cardioid.argcheck (mu, rho) := by
    refine ⟨?_, h0, h1.le⟩
    rcases hmu with rfl | rfl <;> constructor <;> simp only <;> linarith
  have hpdf : distPdf cardioid x (mu, rho) = some v := by
    unfold distPdf
    rw [if_neg (not_not.2 hac), if_pos (wrap2pi_mem x), hw, hv]
    rfl
  unfold pairLogpdf distLogpdf
  simp only [List.getD_cons_zero, List.getD_cons_succ, hpdf, Option.bind_some, if_neg (not_le.2 hv0), Option.getD_some]

private noncomputable def eps : ℝ := 1 / 10 ^ 32

private lemma lg0 {p : Fin 2 → ℝ} {r0 r1 : ℝ} (hp : ∀ c, 0 ≤ p c) (h0 : 0 ≤ r0) (h1 : r0 < 1 / 2) (g0 : 0 ≤ r1)
    (g1 : r1 < 1 / 2) (c : Fin 2) (i : Fin 7) :
    exp (logGamma lwOffset (pairLogpdf cardioid) ang p ![[0, r0], [π, r1]] c i) =
      (p c + eps) / (2 * π) * (![wts (1 + 2 * r0) (1 - 2 * r0), wts (1 - 2 * r1) (1 + 2 * r1)] c i) := by
  have hpi := pi_pos
  have hpe : ∀ c, 0 < p c + eps := fun c => by
    have : 0 < eps := by unfold eps; positivity
    linarith [hp c]
  have a1 : pairLogpdf cardioid [0, r0] 0 = log ((1 + 2 * r0) / 2 / π) :=
    plog (Or.inl rfl) (Or.inl rfl) h0 h1 (by simp) (by positivity)
  have a2 : pairLogpdf cardioid [0, r0] π = log ((1 - 2 * r0) / 2 / π) :=
    plog (Or.inl rfl) (Or.inr rfl) h0 h1 (by simp; ring) (div_pos (div_pos (by linarith) two_pos) hpi)
  have a3 : pairLogpdf cardioid [π, r1] 0 = log ((1 - 2 * r1) / 2 / π) :=
    plog (Or.inr rfl) (Or.inl rfl) g0 g1 (by simp; ring) (div_pos (div_pos (by linarith) two_pos) hpi)
  have a4 : pairLogpdf cardioid [π, r1] π = log ((1 + 2 * r1) / 2 / π) :=
    plog (Or.inr rfl) (Or.inr rfl) g0 g1 (by simp) (by positivity)
  have b1 : 0 < (1 + 2 * r0) / 2 / π := by positivity
  have b2 : 0 < (1 - 2 * r0) / 2 / π := div_pos (div_pos (by linarith) two_pos) hpi
  have b3 : 0 < (1 - 2 * r1) / 2 / π := div_pos (div_pos (by linarith) two_pos) hpi
  have b4 : 0 < (1 + 2 * r1) / 2 / π := by positivity
  have key : ∀ c v, 0 < v / 2 / π → exp (lwOffset (p c) + log (v / 2 / π)) = (p c + eps) / (2 * π) * v := by
    intro c v hv
    rw [exp_add, lwOffset, exp_log hv, ← eps, exp_log (hpe c)]
    field_simp
  fin_cases c
  · have k := fun v => key 0 v
    fin_cases i <;> simp [logGamma, ang, wts, a1, a2, k _ b1, k _ b2]
  · have k := fun v => key 1 v
    fin_cases i <;> simp [logGamma, ang, wts, a3, a4, k _ b3, k _ b4]

private lemma sum_wts (u v : ℝ) : ∑ i, wts u v i = 3 * u + 4 * v := by
  simp [wts, Fin.sum_univ_succ]
  ring

/-- The responsibilities and the negative log-likelihood at parameters `(0, r0)`, `(π, r1)` and weights `p`. -/
private lemma pass {p : Fin 2 → ℝ} {r0 r1 : ℝ} (hp : ∀ c, 0 ≤ p c) (h0 : 0 ≤ r0) (h1 : r0 < 1 / 2) (g0 : 0 ≤ r1)
    (g1 : r1 < 1 / 2) {A B A' B' : ℝ} (hA : A = (p 0 + eps) * (1 + 2 * r0)) (hB : B = (p 0 + eps) * (1 - 2 * r0))
    (hA' : A' = (p 1 + eps) * (1 - 2 * r1)) (hB' : B' = (p 1 + eps) * (1 + 2 * r1)) :
    let lg := logGamma lwOffset (pairLogpdf cardioid) ang p ![[0, r0], [π, r1]]
    resp lg 0 = wts (A / (A + A')) (B / (B + B')) ∧ resp lg 1 = wts (A' / (A + A')) (B' / (B + B')) ∧
      mixNLL lg = -(3 * log ((A + A') / (2 * π)) + 4 * log ((B + B') / (2 * π))) := by
  intro lg
  have hpi := pi_pos
  have he := lg0 hp h0 h1 g0 g1
  have hs : ∀ i, ∑ c, exp (lg c i) = wts ((A + A') / (2 * π)) ((B + B') / (2 * π)) i := by
    intro i
    rw [Fin.sum_univ_two, he, he]
    fin_cases i <;> simp [wts, hA, hB, hA', hB'] <;> ring
  refine ⟨funext fun i => ?_, funext fun i => ?_, ?_⟩
  · rw [resp_eq lg two_pos, hs, he]
    fin_cases i <;> simp [wts, hA, hB, hA', hB'] <;> field_simp
  · rw [resp_eq lg two_pos, hs, he]
    fin_cases i <;> simp [wts, hA, hB, hA', hB'] <;> field_simp
  · rw [mixNLL]
    congr 1
    simp only [logNorm, hs]
    rw [show (fun i => log (wts ((A + A') / (2 * π)) ((B + B') / (2 * π)) i)) =
      wts (log ((A + A') / (2 * π))) (log ((B + B') / (2 * π))) from ?_, sum_wts]
    funext i
    fin_cases i <;> simp [wts]

section

variable (T : FitTools) (rnd : ℝ → ℤ) (lower : String → String)

/-- The component fit of the default cardioid mixture. -/
private lemma comp_eq (hl : lower "moments" = "moments") {m : String} (hm : lower m = "auto") {data w : List ℝ} {c : ℝ}
    (hx : data.map wrap2pi = data) (hd : data ≠ []) (hw : w.length = data.length) (h0 : ∀ v ∈ w, 0 ≤ v)
    (hs : 1 / 10 ^ 12 < w.sum) (hmo : moment data w 1 = (c : ℂ)) (hc1 : |c| ≤ 1 / 2) :
    fitComponent 2 (pairFit lower (mocdFamilyFit T rnd "cardioid") data)
      (mocdCandidates lower none (.str m) "cardioid") w none =
        .ok [if |c| ≤ 1 / 10 ^ 12 then 0 else if 0 < c then 0 else π, |c|] := by
  obtain ⟨v, hv⟩ := C127_auto rnd lower hl hm (name := "cardioid") (by decide) hd hw h0 hs none
  obtain ⟨h1, h2⟩ := hv T
  have hp : (0 : ℝ) < 1 / 10 ^ 12 := by positivity
  have h3 : mocdFamilyFit T rnd "cardioid" = cardFit T.minG := by
    unfold mocdFamilyFit
    rw [if_pos rfl]
  rw [h3, cardMom hx hd hw h0 (hp.trans hs) hmo hc1, Except.ok.injEq] at h1
  rw [h2, ← h1]

private lemma wrap_list : ∀ {l : List ℝ}, (∀ x ∈ l, x = 0 ∨ x = π) → l.map wrap2pi = l
  | [], _ => rfl
  | x :: xs, h => by
    rw [List.map_cons, wrap_list fun y hy => h y (by simp [hy])]
    rcases h x (by simp) with rfl | rfl
    · rw [wrap2pi_zero]
    · rw [wrap2pi_pi]

variable (hl : lower "moments" = "moments") {m : String} (hm : lower m = "auto")

private noncomputable def th0 : Fin 2 → List ℝ := ![[0, 0], [π, 1 / 5]]

private noncomputable def th1 : Fin 2 → List ℝ := ![[0, 1 / 17], [π, 29 / 83]]

private lemma labels_eq (draws : List (Fin 7 → Fin 2)) : initLabels 128 (lab :: draws) = .ok lab := by
  rw [initLabels, if_neg (by norm_num)]
  have : ((lab :: draws).take 128).find? (fun l => decide (∀ c, ∃ i, l i = c)) = some lab := by
    rw [List.take_succ_cons, List.find?_cons_of_pos]
    simp only [decide_eq_true_eq]
    decide
  rw [this]

include hl hm in
private lemma init_eq :
    mocdInit (fun l => fitComponent 2 (pairFit lower (mocdFamilyFit T rnd "cardioid") l)
      (mocdCandidates lower none (.str m) "cardioid") (l.map fun _ => 1) none) ang lab = .ok ⟨fun _ => 1 / 2, th0⟩ := by
  have hpi := pi_pos
  unfold mocdInit
  rw [(allOk_eq (g := th0)).2 ?_]
  · simp [Except.map]
  intro c
  have hf : ∀ (P : Fin 7 → Bool), (∀ i, P i = true ↔ lab i = c) → ((List.finRange 7).filter P).map ang =
      ![[0, π], [0, 0, π, π, π]] c := by
    intro P hP
    have hP' : P = fun i => decide (lab i = c) := by
      funext i
      rw [Bool.eq_iff_iff, hP]
      simp
    subst hP'
    fin_cases c
    · have : (List.finRange 7).filter (fun i => decide (lab i = 0)) = [0, 1] := by decide
      simp [this, ang]
    · have : (List.finRange 7).filter (fun i => decide (lab i = 1)) = [2, 3, 4, 5, 6] := by decide
      simp [this, ang]
  rw [hf _ fun i => by simp]
  fin_cases c
  · have hmo : moment [0, π] [1, 1] 1 = ((0 : ℝ) : ℂ) := by
      simp [moment, expSum]
    have := comp_eq T rnd lower hl hm (data := [0, π]) (w := [1, 1]) (wrap_list (by simp)) (by simp) (by simp) (by simp)
      (by norm_num) hmo (by simp)
    simpa [th0] using this
  · have hmo : moment [0, 0, π, π, π] [1, 1, 1, 1, 1] 1 = ((-(1 / 5) : ℝ) : ℂ) := by
      simp [moment, expSum]
      norm_num
    have := comp_eq T rnd lower hl hm (data := [0, 0, π, π, π]) (w := [1, 1, 1, 1, 1]) (wrap_list (by simp)) (by simp)
      (by simp) (by simp) (by norm_num) hmo (by norm_num [abs_of_neg])
    have ha : |(-(1 / 5) : ℝ)| = 1 / 5 := by norm_num [abs_of_neg]
    rw [ha, if_neg (by norm_num), if_neg (by norm_num)] at this
    simpa [th0] using this

private lemma comp_wts {u v c : ℝ} (hl : lower "moments" = "moments") (hm : lower m = "auto") (hu : 0 < u) (hv : 0 < v)
    (h1 : 1 / 10 ^ 7 < 3 * u + 4 * v) (hc : (3 * u - 4 * v) / (3 * u + 4 * v) = c) (hc1 : |c| ≤ 1 / 2) (th : List ℝ) :
    mocdComp (fun w => fitComponent 2 (pairFit lower (mocdFamilyFit T rnd "cardioid") (List.ofFn ang))
      (mocdCandidates lower none (.str m) "cardioid") (List.ofFn w) none) (wts u v) th =
      .ok [if |c| ≤ 1 / 10 ^ 12 then 0 else if 0 < c then 0 else π, |c|] := by
  have hpos : 0 < 3 * u + 4 * v := by linarith
  have h2 : (1 : ℝ) / 10 ^ 12 < 3 * u + 4 * v := lt_trans (by norm_num) h1
  have hnc : ¬ isclose (3 * u + 4 * v) 0 rtolDefault atolDefault := by
    rw [isclose_zero _ _ _ hpos.le, not_le]
    refine lt_trans ?_ h1
    norm_num [atolDefault]
  unfold mocdComp
  rw [sum_wts, if_neg hnc, if_neg (not_le.2 h2)]
  beta_reduce
  rw [ofFn_ang, ofFn_wts]
  refine comp_eq T rnd lower hl hm (wrap_list (by simp)) (by simp) (by simp) ?_ ?_ ?_ hc1
  · simp [hu.le, hv.le]
  · simp only [List.sum_cons, List.sum_nil]
    linarith
  · rw [moment_wts _ _ hpos.ne', hc]

private noncomputable def fitc (m : String) : (Fin 7 → ℝ) → Except PyErr (List ℝ) := fun w =>
  fitComponent 2 (pairFit lower (mocdFamilyFit T rnd "cardioid") (List.ofFn ang))
    (mocdCandidates lower none (.str m) "cardioid") (List.ofFn w) none

include hl hm in
private lemma step1 : mocdStep (pairLogpdf cardioid) (fitc T rnd lower m) ang ⟨fun _ => 1 / 2, th0⟩ =
    .ok (-(3 * log ((1 / 2 + eps) * (8 / 5) / (2 * π)) + 4 * log ((1 / 2 + eps) * (12 / 5) / (2 * π))),
      ⟨![85 / 168, 83 / 168], th1⟩) := by
  have he : 0 < eps := by unfold eps; positivity
  have hh : 1 / 2 + eps ≠ 0 := by positivity
  obtain ⟨e1, e2, e3⟩ := pass (p := fun _ => 1 / 2) (r0 := 0) (r1 := 1 / 5) (fun _ => by norm_num) le_rfl (by norm_num)
    (by norm_num) (by norm_num) rfl rfl rfl rfl
  have f1 : (1 / 2 + eps) * (1 + 2 * 0) / ((1 / 2 + eps) * (1 + 2 * 0) + (1 / 2 + eps) * (1 - 2 * (1 / 5))) = 5 / 8 := by
    field_simp; norm_num
  have f2 : (1 / 2 + eps) * (1 - 2 * 0) / ((1 / 2 + eps) * (1 - 2 * 0) + (1 / 2 + eps) * (1 + 2 * (1 / 5))) = 5 / 12 := by
    field_simp; norm_num
  have f3 : (1 / 2 + eps) * (1 - 2 * (1 / 5)) / ((1 / 2 + eps) * (1 + 2 * 0) + (1 / 2 + eps) * (1 - 2 * (1 / 5))) =
      3 / 8 := by
    field_simp; norm_num
  have f4 : (1 / 2 + eps) * (1 + 2 * (1 / 5)) / ((1 / 2 + eps) * (1 - 2 * 0) + (1 / 2 + eps) * (1 + 2 * (1 / 5))) =
      7 / 12 := by
    field_simp; norm_num
  have f5 : (1 / 2 + eps) * (1 + 2 * 0) + (1 / 2 + eps) * (1 - 2 * (1 / 5)) = (1 / 2 + eps) * (8 / 5) := by ring
  have f6 : (1 / 2 + eps) * (1 - 2 * 0) + (1 / 2 + eps) * (1 + 2 * (1 / 5)) = (1 / 2 + eps) * (12 / 5) := by ring
  rw [f1, f2] at e1
  rw [f3, f4] at e2
  rw [f5, f6] at e3
  have c1 := comp_wts T rnd lower (u := 5 / 8) (v := 5 / 12) (c := 1 / 17) hl hm (by norm_num) (by norm_num)
    (by norm_num) (by norm_num) (by norm_num [abs_of_pos]) (th0 0)
  have c2 := comp_wts T rnd lower (u := 3 / 8) (v := 7 / 12) (c := -(29 / 83)) hl hm (by norm_num) (by norm_num)
    (by norm_num) (by norm_num) (by norm_num [abs_of_neg]) (th0 1)
  have a1 : |(1 / 17 : ℝ)| = 1 / 17 := abs_of_pos (by norm_num)
  have a2 : |(-(29 / 83) : ℝ)| = 29 / 83 := by rw [abs_neg]; exact abs_of_pos (by norm_num)
  rw [a1, if_neg (by norm_num), if_pos (by norm_num)] at c1
  rw [a2, if_neg (by norm_num), if_neg (by norm_num)] at c2
  unfold mocdStep
  simp only
  rw [show th0 = ![[0, 0], [π, 1 / 5]] from rfl, e3, (allOk_eq (g := th1)).2 ?_]
  · simp only [Except.map]
    congr 3
    funext c
    have hS : ∀ c, ∑ i, resp (logGamma lwOffset (pairLogpdf cardioid) ang (fun _ => 1 / 2) ![[0, 0], [π, 1 / 5]]) c i =
        (![85 / 24, 83 / 24] : Fin 2 → ℝ) c := by
      intro c
      fin_cases c
      · simp only [Fin.zero_eta]
        rw [e1, sum_wts]
        norm_num
      · simp only [Fin.mk_one]
        rw [e2, sum_wts]
        norm_num
    simp only [mixWeights, hS]
    fin_cases c <;> simp [Fin.sum_univ_two] <;> norm_num
  · intro c
    fin_cases c
    · simp only [Fin.zero_eta]
      rw [e1]
      exact c1
    · simp only [Fin.mk_one]
      rw [e2]
      exact c2

private lemma comp_ok {u v : ℝ} (hl : lower "moments" = "moments") (hm : lower m = "auto") (hu : 0 < u) (hv : 0 < v)
    (h1 : 1 / 10 ^ 7 < 3 * u + 4 * v) (th : List ℝ) :
    ∃ th', mocdComp (fitc T rnd lower m) (wts u v) th = .ok th' := by
  have hpos : 0 < 3 * u + 4 * v := by linarith
  have h2 : (1 : ℝ) / 10 ^ 12 < 3 * u + 4 * v := lt_trans (by norm_num) h1
  have hnc : ¬ isclose (3 * u + 4 * v) 0 rtolDefault atolDefault := by
    rw [isclose_zero _ _ _ hpos.le, not_le]
    refine lt_trans ?_ h1
    norm_num [atolDefault]
  unfold mocdComp fitc
  rw [sum_wts, if_neg hnc, if_neg (not_le.2 h2), ofFn_ang, ofFn_wts]
  obtain ⟨v', hv'⟩ := C127_auto rnd lower hl hm (name := "cardioid") (by decide) (data := [0, π, 0, 0, π, π, π])
    (w := [u, v, u, u, v, v, v]) (by simp) (by simp) (by simp [hu.le, hv.le])
    (by simp only [List.sum_cons, List.sum_nil]; linarith) none
  exact ⟨_, (hv' T).2⟩

include hl hm in
private lemma step2 : ∃ s', mocdStep (pairLogpdf cardioid) (fitc T rnd lower m) ang ⟨![85 / 168, 83 / 168], th1⟩ =
    .ok (-(3 * log (((85 / 168 + eps) * (19 / 17) + (83 / 168 + eps) * (25 / 83)) / (2 * π)) +
      4 * log (((85 / 168 + eps) * (15 / 17) + (83 / 168 + eps) * (141 / 83)) / (2 * π))), s') := by
  have he : 0 < eps := by unfold eps; positivity
  obtain ⟨e1, e2, e3⟩ := pass (p := ![85 / 168, 83 / 168]) (r0 := 1 / 17) (r1 := 29 / 83)
    (A := (85 / 168 + eps) * (19 / 17)) (B := (85 / 168 + eps) * (15 / 17))
    (A' := (83 / 168 + eps) * (25 / 83)) (B' := (83 / 168 + eps) * (141 / 83))
    (fun c => by fin_cases c <;> simp <;> norm_num) (by norm_num) (by norm_num)
    (by norm_num) (by norm_num) (by simp; norm_num) (by simp; norm_num) (by simp; norm_num) (by simp; norm_num)
  have c1 := comp_ok T rnd lower (u := (85 / 168 + eps) * (19 / 17) / ((85 / 168 + eps) * (19 / 17) + (83 / 168 + eps) * (25 / 83)))
    (v := (85 / 168 + eps) * (15 / 17) / ((85 / 168 + eps) * (15 / 17) + (83 / 168 + eps) * (141 / 83)))
    hl hm (by positivity) (by positivity) (by unfold eps; norm_num) (th1 0)
  have c2 := comp_ok T rnd lower (u := (83 / 168 + eps) * (25 / 83) / ((85 / 168 + eps) * (19 / 17) + (83 / 168 + eps) * (25 / 83)))
    (v := (83 / 168 + eps) * (141 / 83) / ((85 / 168 + eps) * (15 / 17) + (83 / 168 + eps) * (141 / 83)))
    hl hm (by positivity) (by positivity) (by unfold eps; norm_num) (th1 1)
  obtain ⟨t1, c1⟩ := c1
  obtain ⟨t2, c2⟩ := c2
  unfold mocdStep
  simp only
  rw [show th1 = ![[0, 1 / 17], [π, 29 / 83]] from rfl, e3, (allOk_eq (g := ![t1, t2])).2 ?_]
  · exact ⟨_, rfl⟩
  · intro c
    fin_cases c
    · simp only [Fin.zero_eta]
      rw [e1]
      exact c1
    · simp only [Fin.mk_one]
      rw [e2]
      exact c2

private lemma falls : -(3 * log ((1 / 2 + eps) * (8 / 5) / (2 * π)) + 4 * log ((1 / 2 + eps) * (12 / 5) / (2 * π))) + 1 / 20 <
    -(3 * log (((85 / 168 + eps) * (19 / 17) + (83 / 168 + eps) * (25 / 83)) / (2 * π)) +
      4 * log (((85 / 168 + eps) * (15 / 17) + (83 / 168 + eps) * (141 / 83)) / (2 * π))) := by
  have he : 0 < eps := by unfold eps; positivity
  have h2 : (2 * π) ≠ 0 := two_pi_pos.ne'
  obtain ⟨P, hP⟩ : ∃ P, (1 / 2 + eps) * (8 / 5) = P := ⟨_, rfl⟩
  obtain ⟨P', hP'⟩ : ∃ P, (1 / 2 + eps) * (12 / 5) = P := ⟨_, rfl⟩
  obtain ⟨Q, hQ⟩ : ∃ P, (85 / 168 + eps) * (19 / 17) + (83 / 168 + eps) * (25 / 83) = P := ⟨_, rfl⟩
  obtain ⟨Q', hQ'⟩ : ∃ P, (85 / 168 + eps) * (15 / 17) + (83 / 168 + eps) * (141 / 83) = P := ⟨_, rfl⟩
  have p1 : 0 < P := by rw [← hP]; positivity
  have p2 : 0 < P' := by rw [← hP']; positivity
  have p3 : 0 < Q := by rw [← hQ]; positivity
  have p4 : 0 < Q' := by rw [← hQ']; positivity
  have key : 20 * (Q ^ 3 * Q' ^ 4) < 19 * (P ^ 3 * P' ^ 4) := by
    rw [← hP, ← hP', ← hQ, ← hQ']
    unfold eps
    norm_num
  have hlog : log (20 * (Q ^ 3 * Q' ^ 4)) < log (19 * (P ^ 3 * P' ^ 4)) := log_lt_log (by positivity) key
  rw [log_mul (by norm_num) (by positivity), log_mul (by positivity) (by positivity), log_mul (by norm_num) (by positivity),
    log_mul (by positivity) (by positivity), log_pow, log_pow, log_pow, log_pow] at hlog
  have hc : 1 / 20 ≤ log 20 - log 19 := by
    rw [← log_div (by norm_num) (by norm_num)]
    rw [le_log_iff_exp_le (by norm_num)]
    have h := add_one_le_exp (-(1 / 20 : ℝ))
    rw [exp_neg] at h
    have hp := exp_pos (1 / 20 : ℝ)
    have := mul_le_mul_of_nonneg_right h hp.le
    rw [inv_mul_cancel₀ hp.ne'] at this
    linarith
  rw [hP, hP', hQ, hQ', log_div p1.ne' h2, log_div p2.ne' h2, log_div p3.ne' h2, log_div p4.ne' h2]
  push_cast at hlog
  linarith

end

/-- With the default `fit_method` the likelihood can fall: two passes over the seven observations 0°, 180°, 0°, 0°,
180°, 180°, 180° with `MoCD(cardioid, n_clusters=2, n_iters=2)`, when the first draw of labels is 0, 0, 1, 1, 1, 1, 1.
The second recorded negative log-likelihood exceeds the first by more than 1/20. The optimiser, the other draws and
the tolerance are arbitrary. -/
theorem C127_falls (T : FitTools) (rnd : ℝ → ℤ) (lower : String → String) (hl : lower "moments" = "moments")
    (hm : lower "auto" = "auto") (threshold : ℝ) (draws : List (Fin 7 → Fin 2)) :
    ∃ r x y, mocdRun T rnd lower cardioid "cardioid" none (.str "auto") "degree" 360 20 2 threshold
        (![0, 0, 1, 1, 1, 1, 1] :: draws) ![0, 180, 0, 0, 180, 180, 180] = .ok (some r) ∧
      r.nLL = [x, y] ∧ x + 1 / 20 < y := by
  obtain ⟨s', h2⟩ := step2 T rnd lower hl hm
  have h1 := step1 T rnd lower hl hm
  have hi := init_eq T rnd lower hl hm
  refine ⟨⟨s', [_, _], false, none⟩, _, _, ?_, rfl, falls⟩
  unfold mocdRun mocdFit
  simp only
  rw [if_neg (by norm_num), show (![0, 0, 1, 1, 1, 1, 1] : Fin 7 → Fin 2) = lab from rfl, labels_eq,
    show (![0, 180, 0, 0, 180, 180, 180] : Fin 7 → ℝ) = obs from rfl, ang_eq]
  simp only [Except.bind]
  rw [hi]
  simp only [emFit, emLoop]
  rw [show (fun w : Fin 7 → ℝ => fitComponent 2 (pairFit lower (mocdFamilyFit T rnd "cardioid") (List.ofFn ang))
    (mocdCandidates lower none (.str "auto") "cardioid") (List.ofFn w) none) = fitc T rnd lower "auto" from rfl, h1]
  simp only [Except.map, Except.bind]
  rw [if_neg (by simp), h2]
  simp

end Verif.Props
