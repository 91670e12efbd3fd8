import Verif.Lemmas.Mixture
import Verif.Lemmas.Descriptive
import Verif.Model.Regression
import Mathlib.MeasureTheory.Integral.IntervalIntegral.Periodic

/-!
# C57, C58, C60, C93, C94: mixture models (`MovM`, `MoCD`, `MoKJ`) and information criteria
-/

set_option autoImplicit false

namespace Verif.Props

open Real Verif

/-- Specification: mixing weights. -/
def IsWeights {K : ℕ} (p : Fin K → ℝ) : Prop := (∀ c, 0 ≤ p c) ∧ ∑ c, p c = 1

variable {Θ : Type} {K n : ℕ}

/-! ## Responsibilities -/

/-- Whatever the log-densities, responsibilities lie in `(0, 1]` and sum to one over the components. -/
theorem C58_resp (lg : Fin K → Fin n → ℝ) (hK : 0 < K) :
    (∀ c i, 0 < resp lg c i ∧ resp lg c i ≤ 1) ∧ ∀ i, ∑ c, resp lg c i = 1 := by
  refine ⟨fun c i => ⟨resp_pos lg c i, ?_⟩, resp_sum lg hK⟩
  rw [← resp_sum lg hK i]
  exact Finset.single_le_sum (f := fun c => resp lg c i) (fun d _ => (resp_pos lg d i).le) (Finset.mem_univ c)

/-- Bayes' rule: the responsibility of a component is its weighted density relative to the sum of the weighted
densities, with weights shifted by `1e-32` (`MovM`, `MoCD`) or floored at `1e-300` (`MoKJ`). -/
theorem C58_bayes (logpdf : Θ → ℝ → ℝ) (a : Fin n → ℝ) (p : Fin K → ℝ) (th : Fin K → Θ) (hp : ∀ c, 0 ≤ p c)
    (c : Fin K) (i : Fin n) :
    resp (logGamma lwOffset logpdf a p th) c i =
        (p c + 1 / 10 ^ 32) * exp (logpdf (th c) (a i)) /
          ∑ d, (p d + 1 / 10 ^ 32) * exp (logpdf (th d) (a i)) ∧
      resp (logGamma lwClip logpdf a p th) c i =
        max (p c) (1 / 10 ^ 300) * exp (logpdf (th c) (a i)) /
          ∑ d, max (p d) (1 / 10 ^ 300) * exp (logpdf (th d) (a i)) := by
  have hK : 0 < K := lt_of_le_of_lt (Nat.zero_le _) c.isLt
  have h1 : ∀ d, exp (lwOffset (p d)) = p d + 1 / 10 ^ 32 := fun d =>
    exp_log (add_pos_of_nonneg_of_pos (hp d) (by positivity))
  have h2 : ∀ d, exp (lwClip (p d)) = max (p d) (1 / 10 ^ 300) := fun d =>
    exp_log (lt_max_of_lt_right (by positivity))
  rw [resp_eq _ hK, resp_eq _ hK]
  simp only [logGamma, exp_add, h1, h2, and_self]

/-- The label of an observation is the first component with the largest responsibility. -/
theorem C58_labels (g : Fin K → Fin n → ℝ) (hK : 0 < K) (i : Fin n) :
    ∃ c : Fin K, mixLabels g i = c ∧ (∀ d, g d i ≤ g c i) ∧ ∀ d < c, g d i < g c i := by
  have hne : (List.ofFn fun c => -g c i) ≠ [] := by
    intro h
    have := congrArg List.length h
    simp at this
    omega
  have hlt := argminL_lt hne
  have hlt' : mixLabels g i < K := by simpa [mixLabels] using hlt
  obtain ⟨h1, h2⟩ := argminL_spec hlt
  refine ⟨⟨mixLabels g i, hlt'⟩, rfl, fun d => ?_, fun d hd => ?_⟩
  · have := h1 (-g d i) (by simp)
    simp only [List.getElem_ofFn] at this
    exact neg_le_neg_iff.1 this
  · have := h2 d hd
    simp only [List.getElem_ofFn] at this
    exact neg_lt_neg_iff.1 this

/-! ## The fits -/

private lemma movmStep_inv (logpdf : ℝ × ℝ → ℝ → ℝ) (a : Fin n → ℝ) (hn : 0 < n) (hK : 0 < K)
    {s s' : MixState (ℝ × ℝ) K} {v : ℝ} (h : movmStep logpdf a s = some (v, s'))
    (hs : IsWeights s.p ∧ ∀ c, 0 ≤ (s.th c).1 ∧ (s.th c).1 < 2 * π ∧ 1 / 10 ^ 3 ≤ (s.th c).2) :
    IsWeights s'.p ∧ ∀ c, 0 ≤ (s'.th c).1 ∧ (s'.th c).1 < 2 * π ∧ 1 / 10 ^ 3 ≤ (s'.th c).2 := by
  simp only [movmStep, Option.map_eq_some_iff] at h
  obtain ⟨th, hth, h⟩ := h
  obtain ⟨-, rfl⟩ := Prod.mk.inj h
  refine ⟨⟨fun c => mixWeights_nonneg (fun d => Finset.sum_nonneg fun i _ => (resp_pos _ d i).le) c, ?_⟩,
    fun c => ?_⟩
  · refine mixWeights_sum ?_
    rw [resp_total _ hK]
    exact Nat.cast_ne_zero.2 hn.ne'
  · have := allSome_eq.1 hth c
    rw [movmComp] at this
    split_ifs at this with h0
    · show 0 ≤ (th c).1 ∧ (th c).1 < 2 * π ∧ 1 / 10 ^ 3 ≤ (th c).2
      rw [← Option.some.inj this]
      exact ⟨(hs.2 c).1, (hs.2 c).2.1, le_max_right _ _⟩
    · rw [Option.bind_eq_some_iff] at this
      obtain ⟨mr, hmr, h2⟩ := this
      rw [Option.map_eq_some_iff] at h2
      obtain ⟨m, hm, h2⟩ := h2
      show 0 ≤ (th c).1 ∧ (th c).1 < 2 * π ∧ 1 / 10 ^ 3 ≤ (th c).2
      rw [← h2]
      rw [circMeanAndR_eq] at hmr
      split_ifs at hmr with h3 h4
      · rw [← Option.some.inj hmr] at hm
        simp at hm
      · rw [← Option.some.inj hmr] at hm
        simp only [Option.some.injEq] at hm
        rw [← hm]
        exact ⟨angmod2pi_nonneg _, angmod2pi_lt _, le_max_right _ _⟩

private lemma movmInit_inv (a : Fin n → ℝ) (labels : Fin n → Fin K) (hK : 0 < K)
    {s : MixState (ℝ × ℝ) K} (h : movmInit a labels = some s) :
    IsWeights s.p ∧ ∀ c, 0 ≤ (s.th c).1 ∧ (s.th c).1 < 2 * π ∧ 1 / 10 ^ 3 ≤ (s.th c).2 := by
  simp only [movmInit, Option.map_eq_some_iff] at h
  obtain ⟨th, hth, rfl⟩ := h
  refine ⟨⟨fun c => by positivity, ?_⟩, fun c => ?_⟩
  · simp only [Finset.sum_const, Finset.card_univ, Fintype.card_fin, nsmul_eq_mul]
    field_simp
  · have := allSome_eq.1 hth c
    rw [Option.bind_eq_some_iff] at this
    obtain ⟨mr, hmr, h2⟩ := this
    rw [Option.map_eq_some_iff] at h2
    obtain ⟨m, hm, h2⟩ := h2
    show 0 ≤ (th c).1 ∧ (th c).1 < 2 * π ∧ 1 / 10 ^ 3 ≤ (th c).2
    rw [← h2]
    rw [circMeanAndR_eq] at hmr
    split_ifs at hmr with h3 h4
    · rw [← Option.some.inj hmr] at hm
      simp at hm
    · rw [← Option.some.inj hmr] at hm
      simp only [Option.some.injEq] at hm
      rw [← hm]
      exact ⟨angmod2pi_nonneg _, angmod2pi_lt _, le_max_right _ _⟩

/-- `MovM.fit`: the fitted weights are non-negative and sum to one, the means lie in `[0, 2π)` and every
concentration is at least `1e-3`, whatever the component density. -/
theorem C58_movm {logpdf : ℝ × ℝ → ℝ → ℝ} {unit : String} {fullCycle : ℝ} {burnin nIters : ℕ} {threshold : ℝ}
    {prev : Bool × Option ℕ} {draws : List (Fin n → Fin K)} {X : Fin n → ℝ} {r : EMResult (MixState (ℝ × ℝ) K)}
    (h : movmFit logpdf unit fullCycle burnin nIters threshold prev draws X = .ok (some r)) :
    IsWeights r.state.p ∧
      ∀ c, 0 ≤ (r.state.th c).1 ∧ (r.state.th c).1 < 2 * π ∧ 1 / 10 ^ 3 ≤ (r.state.th c).2 := by
  rw [movmFit] at h
  split_ifs at h with hn
  have hn' : 0 < n := Nat.pos_of_ne_zero hn
  cases hl : initLabels 100 draws with
  | error e => rw [hl] at h; simp [Except.bind] at h
  | ok labels =>
    have hK : 0 < K := lt_of_le_of_lt (Nat.zero_le _) (labels ⟨0, hn'⟩).isLt
    rw [hl] at h
    simp only [Except.bind] at h
    split at h
    · simp at h
    · rename_i s hs
      refine emFit_inv (fun s : MixState (ℝ × ℝ) K => IsWeights s.p ∧
        ∀ c, 0 ≤ (s.th c).1 ∧ (s.th c).1 < 2 * π ∧ 1 / 10 ^ 3 ≤ (s.th c).2) (movmInit_inv _ labels hK hs) (fun s v s' hP hst => ?_) h
      simp only [Except.ok.injEq] at hst
      exact movmStep_inv logpdf _ hn' hK hst hP

/-- `MoCD.fit`: the fitted weights are non-negative and sum to one, and every component parameter is a result of
the component fit. -/
theorem C58_mocd {logpdf : Θ → ℝ → ℝ} {fit1 : List ℝ → Except PyErr Θ} {fitc : (Fin n → ℝ) → Except PyErr Θ}
    {unit : String} {fullCycle : ℝ} {burnin nIters : ℕ} {threshold : ℝ} {prev : Bool × Option ℕ}
    {draws : List (Fin n → Fin K)} {X : Fin n → ℝ} {r : EMResult (MixState Θ K)}
    (h : mocdFit logpdf fit1 fitc unit fullCycle burnin nIters threshold prev draws X = .ok (some r)) :
    IsWeights r.state.p ∧ ∀ c, (∃ l, fit1 l = .ok (r.state.th c)) ∨ ∃ w, fitc w = .ok (r.state.th c) := by
  rw [mocdFit] at h
  split_ifs at h with hn
  have hn' : 0 < n := Nat.pos_of_ne_zero hn
  cases hl : initLabels 128 draws with
  | error e => rw [hl] at h; simp [Except.bind] at h
  | ok labels =>
    have hK : 0 < K := lt_of_le_of_lt (Nat.zero_le _) (labels ⟨0, hn'⟩).isLt
    rw [hl] at h
    simp only [Except.bind] at h
    cases hi : mocdInit fit1 (fun i => toRad unit fullCycle (X i)) labels with
    | error e => rw [hi] at h; simp at h
    | ok s =>
      rw [hi] at h
      simp only at h
      refine emFit_inv (fun s : MixState Θ K => IsWeights s.p ∧
        ∀ c, (∃ l, fit1 l = .ok (s.th c)) ∨ ∃ w, fitc w = .ok (s.th c)) ?_ (fun s v s' hP hst => ?_) h
      · rw [mocdInit] at hi
        cases ht : allOk fun c => fit1 ((List.finRange n).filter (fun i => decide (labels i = c)) |>.map
          fun i => toRad unit fullCycle (X i)) with
        | error e => rw [ht] at hi; simp [Except.map] at hi
        | ok th =>
          rw [ht] at hi
          simp only [Except.map, Except.ok.injEq] at hi
          subst hi
          refine ⟨⟨fun c => by positivity, ?_⟩, fun c => Or.inl ⟨_, allOk_eq.1 ht c⟩⟩
          simp only [Finset.sum_const, Finset.card_univ, Fintype.card_fin, nsmul_eq_mul]
          field_simp
      · simp only [mocdStep] at hst
        cases ht : allOk fun c => mocdComp fitc (resp (logGamma lwOffset logpdf
          (fun i => toRad unit fullCycle (X i)) s.p s.th) c) (s.th c) with
        | error e => rw [ht] at hst; simp [Except.map] at hst
        | ok th =>
          rw [ht] at hst
          simp only [Except.map, Except.ok.injEq, Option.some.injEq] at hst
          obtain ⟨-, rfl⟩ := Prod.mk.inj hst
          refine ⟨⟨fun c => mixWeights_nonneg (fun d => Finset.sum_nonneg fun i _ => (resp_pos _ d i).le) c, ?_⟩,
            fun c => ?_⟩
          · refine mixWeights_sum ?_
            rw [resp_total _ hK]
            exact Nat.cast_ne_zero.2 hn
          · have := allOk_eq.1 ht c
            rw [mocdComp] at this
            split_ifs at this with h1 h2
            · show (∃ l, fit1 l = .ok (th c)) ∨ ∃ w, fitc w = .ok (th c)
              rw [← Except.ok.inj this]
              exact hP.2 c
            · show (∃ l, fit1 l = .ok (th c)) ∨ ∃ w, fitc w = .ok (th c)
              rw [← Except.ok.inj this]
              exact hP.2 c
            · exact Or.inr ⟨_, this⟩

/-- `MoKJ`: after any number of passes the weights are positive, sum to one, and no weight is below
`w / (n + K w)`, where `w` is `min_comp_weight`. -/
theorem C58_mokj {logpdf : Θ → ℝ → ℝ} {fitc : (Fin n → ℝ) → Θ → Except PyErr Θ} {minW : ℝ} {a : Fin n → ℝ}
    {burnin nIters : ℕ} {threshold : ℝ} {prev : Bool × Option ℕ} {start : MixState Θ K} {r : EMResult (MixState Θ K)}
    (hK : 0 < K) (hm : 0 < minW) (hI : 0 < nIters)
    (h : emFit (fun s => (mokjStep minW logpdf fitc a s).map some) burnin threshold prev nIters start = .ok (some r)) :
    IsWeights r.state.p ∧ ∀ c, minW / (n + K * minW) ≤ r.state.p c := by
  have key : ∀ (s s' : MixState Θ K) (v : ℝ), (mokjStep minW logpdf fitc a s).map some = .ok (some (v, s')) →
      IsWeights s'.p ∧ ∀ c, minW / (n + K * minW) ≤ s'.p c := by
    intro s s' v hst
    simp only [mokjStep] at hst
    cases ht : allOk fun c => fitc (resp (logGamma lwClip logpdf a s.p s.th) c) (s.th c) with
    | error e => rw [ht] at hst; simp [Except.map] at hst
    | ok th =>
      rw [ht] at hst
      simp only [Except.map, Except.ok.injEq, Option.some.injEq] at hst
      obtain ⟨-, rfl⟩ := Prod.mk.inj hst
      have hle : ∑ d : Fin K, max (∑ i, resp (logGamma lwClip logpdf a s.p s.th) d i) minW ≤ n + K * minW := by
        calc _ ≤ ∑ d : Fin K, (∑ i, resp (logGamma lwClip logpdf a s.p s.th) d i + minW) :=
              Finset.sum_le_sum fun d _ => max_le (by linarith)
                (by linarith [Finset.sum_nonneg fun i (_ : i ∈ Finset.univ) =>
                  (resp_pos (logGamma lwClip logpdf a s.p s.th) d i).le])
          _ = _ := by
              rw [Finset.sum_add_distrib, resp_total _ hK]
              simp
      have hpos : 0 < ∑ d : Fin K, max (∑ i, resp (logGamma lwClip logpdf a s.p s.th) d i) minW :=
        Finset.sum_pos (fun c _ => lt_max_of_lt_right hm) ⟨⟨0, hK⟩, Finset.mem_univ _⟩
      have hge : ∀ c, minW / (n + K * minW) ≤
          weightsClip minW (fun c => ∑ i, resp (logGamma lwClip logpdf a s.p s.th) c i) c := fun c =>
        div_le_div₀ (le_trans hm.le (le_max_right _ _)) (le_max_right _ _) hpos hle
      exact ⟨⟨fun c => le_trans (by positivity) (hge c), weightsClip_sum hK hm⟩, hge⟩
  obtain ⟨⟨q, ⟨hq0, hq⟩, hr⟩, -, h3, h4, h5⟩ := C59_loop _ burnin threshold prev nIters start h
  have hpos : 0 < r.nLL.length := by
    by_cases hc : ∃ j, CloseAt threshold burnin r.nLL j
    · obtain ⟨j, hj⟩ := hc
      have := h3 j hj
      omega
    · rw [(h5 hc).1]
      exact hI
  rw [hr, show r.nLL.length = r.nLL.length - 1 + 1 by omega]
  exact key _ _ _ (hq _ _ (List.getElem?_eq_getElem (by omega)))

/-- Refusals: no data, more components than observations, and no draw of labels that uses every component. -/
theorem C58_refused (logpdf : ℝ × ℝ → ℝ → ℝ) (unit : String) (fullCycle : ℝ) (burnin nIters : ℕ) (threshold : ℝ)
    (prev : Bool × Option ℕ) (draws : List (Fin n → Fin K)) (X : Fin n → ℝ) :
    (n = 0 ∨ n < K →
      movmFit logpdf unit fullCycle burnin nIters threshold prev draws X = .error .valueError) ∧
    (0 < n → K ≤ n → (∀ l ∈ draws.take 100, ∃ c, ∀ i, l i ≠ c) →
      movmFit logpdf unit fullCycle burnin nIters threshold prev draws X = .error .runtimeError) := by
  constructor
  · intro h
    rw [movmFit]
    split_ifs with h0
    · rfl
    · rw [initLabels, if_pos (h.resolve_left h0)]
      rfl
  · intro h0 h1 h2
    have : (draws.take 100).find? (fun l => decide (∀ c, ∃ i, l i = c)) = none := by
      rw [List.find?_eq_none]
      intro l hl
      obtain ⟨c, hc⟩ := h2 l hl
      simp only [decide_eq_true_eq]
      intro hcon
      obtain ⟨i, hi⟩ := hcon c
      exact hc i hi
    rw [movmFit, if_neg h0.ne', initLabels, if_neg (by omega), this]
    rfl

/-- Constructor checks. -/
theorem C58_ctor (burnin nClusters nIters : ℤ) (threshold : ℝ) (unit : String) :
    mixCheck burnin nClusters nIters threshold unit = .ok () ↔
      0 ≤ burnin ∧ 0 < nClusters ∧ 0 < nIters ∧ 0 < threshold ∧ (unit = "degree" ∨ unit = "radian") := by
  unfold mixCheck
  by_cases h5 : unit = "degree" <;> by_cases h6 : unit = "radian" <;> simp only [h5, h6] <;> split_ifs <;> simp_all

end Verif.Props
