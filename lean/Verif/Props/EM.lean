import Verif.Model.Clustering
import Mathlib.Tactic.IntervalCases

/-! # C59: the EM loop of the mixture classes: stopping rule and recorded values -/

set_option autoImplicit false

namespace Verif.Props

open Real Verif

/-- Specification: `l` are the values recorded by passes through `step` that visit the states `q 0, q 1, …`. -/
def EMRun {S : Type} (step : S → Except PyErr (Option (ℝ × S))) (start : S) (q : ℕ → S) (l : List ℝ) : Prop :=
  q 0 = start ∧ ∀ j v, l[j]? = some v → step (q j) = .ok (some (v, q (j + 1)))

/-- Specification: the value with index `j` comes after the burn-in and is within `threshold` of the one before. -/
def CloseAt (threshold : ℝ) (burnin : ℕ) (l : List ℝ) (j : ℕ) : Prop :=
  burnin < j ∧ ∃ x y, l[j - 1]? = some x ∧ l[j]? = some y ∧ |y - x| < threshold

private lemma closeAt_append {threshold : ℝ} {burnin : ℕ} {l : List ℝ} {v : ℝ} {j : ℕ} (hj : j < l.length) :
    CloseAt threshold burnin (l ++ [v]) j ↔ CloseAt threshold burnin l j := by
  unfold CloseAt
  rw [List.getElem?_append_left hj, List.getElem?_append_left (by omega)]

private lemma closeAt_last {threshold : ℝ} {burnin : ℕ} {l : List ℝ} {v : ℝ} :
    CloseAt threshold burnin (l ++ [v]) l.length ↔
      burnin < l.length ∧ ∃ x, l.getLast? = some x ∧ |v - x| < threshold := by
  unfold CloseAt
  refine and_congr_right fun hb => ?_
  rw [List.getElem?_append_left (by omega), List.getLast?_eq_getElem?]
  simp

private lemma loop_run {S : Type} (step : S → Except PyErr (Option (ℝ × S))) (burnin : ℕ) (threshold : ℝ)
    (prev : Bool × Option ℕ) (start : S) :
    ∀ (k : ℕ) (q : ℕ → S) (hist : List ℝ) (r : EMResult S),
      EMRun step start q hist → (∀ j < hist.length, ¬ CloseAt threshold burnin hist j) →
      emLoop step burnin threshold prev k hist.length hist.getLast? hist (q hist.length) = .ok (some r) →
      (∃ q, EMRun step start q r.nLL ∧ r.state = q r.nLL.length) ∧
        hist.length ≤ r.nLL.length ∧ r.nLL.length ≤ hist.length + k ∧
        (∀ j, j + 1 < r.nLL.length → ¬ CloseAt threshold burnin r.nLL j) ∧
        ((CloseAt threshold burnin r.nLL (r.nLL.length - 1) ∧ hist.length < r.nLL.length ∧ r.converged = true ∧
            r.iters = some r.nLL.length) ∨
          (¬ CloseAt threshold burnin r.nLL (r.nLL.length - 1) ∧ r.nLL.length = hist.length + k ∧
            r.converged = prev.1 ∧ r.iters = prev.2)) := by
  intro k
  induction k with
  | zero =>
    intro q hist r hrun hcl h
    simp only [emLoop, Except.ok.injEq, Option.some.injEq] at h
    subst h
    refine ⟨⟨q, hrun, rfl⟩, le_rfl, le_rfl, fun j hj => hcl j (by simp only at hj; omega), Or.inr ⟨?_, rfl, rfl, rfl⟩⟩
    rcases Nat.eq_zero_or_pos hist.length with h0 | h0
    · rintro ⟨hb, -⟩
      simp only at hb
      omega
    · exact hcl _ (by simp only; omega)
  | succ k ih =>
    intro q hist r hrun hcl h
    rw [emLoop] at h
    cases hst : step (q hist.length) with
    | error e => rw [hst] at h; simp [Except.bind] at h
    | ok o =>
      cases o with
      | none => rw [hst] at h; simp [Except.bind] at h
      | some vs =>
        obtain ⟨v, s'⟩ := vs
        rw [hst] at h
        simp only [Except.bind] at h
        let q' : ℕ → S := fun j => if j ≤ hist.length then q j else s'
        have hq1 : ∀ j, j ≤ hist.length → q' j = q j := fun j hj => if_pos hj
        have hq2 : q' (hist.length + 1) = s' := if_neg (by omega)
        have hrun' : EMRun step start q' (hist ++ [v]) := by
          refine ⟨by rw [hq1 0 (by omega)]; exact hrun.1, fun j w hw => ?_⟩
          have hlt : j < (hist ++ [v]).length := by
            by_contra hcon
            rw [List.getElem?_eq_none (by omega)] at hw
            simp at hw
          rw [List.length_append, List.length_singleton] at hlt
          rcases Nat.lt_or_eq_of_le (Nat.le_of_lt_succ hlt) with hj | rfl
          · rw [List.getElem?_append_left hj] at hw
            rw [hq1 j (by omega), hq1 (j + 1) (by omega)]
            exact hrun.2 j w hw
          · rw [hq1 _ le_rfl, hq2, hst]
            simp at hw
            rw [hw]
        have hc : (burnin < hist.length ∧ ∃ l, hist.getLast? = some l ∧ |v - l| < threshold) ↔
            CloseAt threshold burnin (hist ++ [v]) hist.length := closeAt_last.symm
        have hold : ∀ j, j < hist.length → ¬ CloseAt threshold burnin (hist ++ [v]) j := fun j hj hcon =>
          hcl j hj ((closeAt_append hj).1 hcon)
        by_cases hcond : burnin < hist.length ∧ ∃ l, hist.getLast? = some l ∧ |v - l| < threshold
        · rw [if_pos hcond] at h
          simp only [Except.ok.injEq, Option.some.injEq] at h
          subst h
          have hl : (hist ++ [v]).length = hist.length + 1 := by simp
          refine ⟨⟨q', hrun', by simp only [hl, hq2]⟩, by simp only [hl]; omega, by simp only [hl]; omega,
            fun j hj => hold j (by simp only [hl] at hj; omega), Or.inl ⟨?_, by simp only [hl]; omega, rfl, ?_⟩⟩
          · simp only [hl, Nat.add_sub_cancel]
            exact hc.1 hcond
          · simp only [hl]
        · rw [if_neg hcond] at h
          have := ih q' (hist ++ [v]) r hrun' (fun j hj => ?_) (by simpa [hq2] using h)
          · rw [List.length_append, List.length_singleton] at this
            obtain ⟨h1, h2, h3, h4, h5⟩ := this
            refine ⟨h1, by omega, by omega, h4, ?_⟩
            rcases h5 with ⟨a1, a2, a3⟩ | ⟨a1, a2, a3⟩
            · exact Or.inl ⟨a1, by omega, a3⟩
            · exact Or.inr ⟨a1, by omega, a3⟩
          · rw [List.length_append, List.length_singleton] at hj
            rcases Nat.lt_or_eq_of_le (Nat.le_of_lt_succ hj) with hlt | rfl
            · exact hold j hlt
            · exact fun hcon => hcond (hc.2 hcon)

/-- The loop stops at the first recorded value that lies after the burn-in and within `threshold` of its
predecessor, and then reports convergence after as many iterations as it recorded values. If there is no such
value it runs exactly `n_iters` passes, and the convergence attributes keep the values they had before. The
recorded values are those of the successive passes, and the reported parameters those after the last pass. -/
theorem C59_loop {S : Type} (step : S → Except PyErr (Option (ℝ × S))) (burnin : ℕ) (threshold : ℝ)
    (prev : Bool × Option ℕ) (nIters : ℕ) (start : S) {r : EMResult S}
    (h : emFit step burnin threshold prev nIters start = .ok (some r)) :
    (∃ q, EMRun step start q r.nLL ∧ r.state = q r.nLL.length) ∧ r.nLL.length ≤ nIters ∧
      (∀ j, CloseAt threshold burnin r.nLL j → j + 1 = r.nLL.length) ∧
      ((∃ j, CloseAt threshold burnin r.nLL j) → r.converged = true ∧ r.iters = some r.nLL.length) ∧
      ((¬ ∃ j, CloseAt threshold burnin r.nLL j) →
        r.nLL.length = nIters ∧ r.converged = prev.1 ∧ r.iters = prev.2) := by
  have := loop_run step burnin threshold prev start nIters (fun _ => start) [] r ⟨rfl, by simp⟩ (by simp) h
  obtain ⟨h1, h2, h3, h4, h5⟩ := this
  simp only [List.length_nil, Nat.zero_add] at h3 h5
  have hlast : ∀ j, CloseAt threshold burnin r.nLL j → j + 1 = r.nLL.length := by
    intro j hj
    have hlt : j < r.nLL.length := by
      obtain ⟨-, x, y, -, hy, -⟩ := hj
      by_contra hcon
      rw [List.getElem?_eq_none (by omega)] at hy
      simp at hy
    by_contra hne
    exact h4 j (by omega) hj
  refine ⟨h1, h3, hlast, fun ⟨j, hj⟩ => ?_, fun hno => ?_⟩
  · rcases h5 with ⟨-, -, a, b⟩ | ⟨a, -⟩
    · exact ⟨a, b⟩
    · have := hlast j hj
      rw [show r.nLL.length - 1 = j by omega] at a
      exact absurd hj a
  · rcases h5 with ⟨a, -⟩ | ⟨-, a⟩
    · exact absurd ⟨_, a⟩ hno
    · exact a

/-- On a newly constructed object: convergence is reported exactly when a recorded value after the burn-in was
within `threshold` of its predecessor; the number of iterations reported is then the number of values recorded,
which exceeds the burn-in by at least two. -/
theorem C59_fresh {S : Type} (step : S → Except PyErr (Option (ℝ × S))) (burnin : ℕ) (threshold : ℝ)
    (nIters : ℕ) (start : S) {r : EMResult S}
    (h : emFit step burnin threshold (false, none) nIters start = .ok (some r)) :
    (r.converged = true ↔ ∃ j, CloseAt threshold burnin r.nLL j) ∧
      (r.converged = true → r.iters = some r.nLL.length ∧ burnin + 2 ≤ r.nLL.length ∧ r.nLL.length ≤ nIters) ∧
      (r.converged = false → r.iters = none ∧ r.nLL.length = nIters) := by
  obtain ⟨-, h2, h3, h4, h5⟩ := C59_loop step burnin threshold (false, none) nIters start h
  have hiff : r.converged = true ↔ ∃ j, CloseAt threshold burnin r.nLL j := by
    refine ⟨fun hc => ?_, fun hc => (h4 hc).1⟩
    by_contra hno
    rw [(h5 hno).2.1] at hc
    simp at hc
  refine ⟨hiff, fun hc => ?_, fun hc => ?_⟩
  · obtain ⟨j, hj⟩ := hiff.1 hc
    refine ⟨(h4 ⟨j, hj⟩).2, ?_, h2⟩
    have := h3 j hj
    have := hj.1
    omega
  · have hno : ¬ ∃ j, CloseAt threshold burnin r.nLL j := fun hcon => by rw [(h4 hcon).1] at hc; simp at hc
    exact ⟨(h5 hno).2.2, (h5 hno).1⟩

/-- With `n_iters ≤ burnin + 1` convergence is never reported by a new object, whatever the data. -/
theorem C59_burnin {S : Type} (step : S → Except PyErr (Option (ℝ × S))) (burnin : ℕ) (threshold : ℝ)
    (nIters : ℕ) (start : S) {r : EMResult S} (hn : nIters ≤ burnin + 1)
    (h : emFit step burnin threshold (false, none) nIters start = .ok (some r)) : r.converged = false := by
  obtain ⟨-, h2, -⟩ := C59_fresh step burnin threshold nIters start h
  by_contra hc
  have := h2 (by simpa using hc)
  omega

/-- Fitting an object again does not reset the convergence attributes: here the first fit converges after two
iterations, the second one does not converge, and afterwards the object still reports convergence after two
iterations. -/
theorem C59_refit : ∃ (step₁ step₂ : ℝ → Except PyErr (Option (ℝ × ℝ))) (r₁ r₂ : EMResult ℝ),
    emFit step₁ 0 1 (false, none) 3 0 = .ok (some r₁) ∧
    emFit step₂ 0 1 (r₁.converged, r₁.iters) 3 0 = .ok (some r₂) ∧
    (¬ ∃ j, CloseAt 1 0 r₂.nLL j) ∧ r₂.nLL.length = 3 ∧ r₂.converged = true ∧ r₂.iters = some 2 := by
  have e2 : emFit (fun x => .ok (some (x, x + 1))) 0 1 (true, some 2) 3 (0 : ℝ) =
      .ok (some ⟨3, [0, 1, 2], true, some 2⟩) := by
    norm_num [emFit, emLoop, Except.bind]
  refine ⟨fun x => .ok (some (x, x)), fun x => .ok (some (x, x + 1)), ⟨0, [0, 0], true, some 2⟩,
    ⟨3, [0, 1, 2], true, some 2⟩, ?_, e2, ?_, rfl, rfl, rfl⟩
  · norm_num [emFit, emLoop, Except.bind]
  · rintro ⟨j, hb, x, y, hx, hy, hlt⟩
    have hj : j < 3 := by
      by_contra hcon
      rw [List.getElem?_eq_none (by simpa using hcon)] at hy
      simp at hy
    interval_cases j <;> simp at hx hy <;> subst hx <;> subst hy <;> norm_num at hlt

/-- What is recorded: `MovM` and `MoCD` record the negative log-likelihood of the parameters with which a pass
started, `MoKJ` that of the parameters it produced. -/
theorem C59_recorded {Θ : Type} {K n : ℕ} (a : Fin n → ℝ) :
    (∀ (logpdf : ℝ × ℝ → ℝ → ℝ) (s s' : MixState (ℝ × ℝ) K) (v : ℝ), (∀ c, 0 ≤ s.p c) →
      movmStep logpdf a s = some (v, s') →
      v = -∑ i, log (∑ c, (s.p c + 1 / 10 ^ 32) * exp (logpdf (s.th c) (a i)))) ∧
    (∀ (logpdf : Θ → ℝ → ℝ) (fitc : (Fin n → ℝ) → Except PyErr Θ) (s s' : MixState Θ K) (v : ℝ),
      (∀ c, 0 ≤ s.p c) → mocdStep logpdf fitc a s = .ok (v, s') →
      v = -∑ i, log (∑ c, (s.p c + 1 / 10 ^ 32) * exp (logpdf (s.th c) (a i)))) ∧
    (∀ (logpdf : Θ → ℝ → ℝ) (fitc : (Fin n → ℝ) → Θ → Except PyErr Θ) (minW : ℝ) (s s' : MixState Θ K) (v : ℝ),
      mokjStep minW logpdf fitc a s = .ok (v, s') →
      v = -∑ i, log (∑ c, max (s'.p c) (1 / 10 ^ 300) * exp (logpdf (s'.th c) (a i)))) := by
  have key : ∀ {Θ : Type} (logpdf : Θ → ℝ → ℝ) (s : MixState Θ K), (∀ c, 0 < s.p c + 1 / 10 ^ 32) →
      mixNLL (logGamma lwOffset logpdf a s.p s.th) =
        -∑ i, log (∑ c, (s.p c + 1 / 10 ^ 32) * exp (logpdf (s.th c) (a i))) := by
    intro Θ logpdf s hs
    simp only [mixNLL, logNorm, logGamma, lwOffset, exp_add]
    congr 1
    exact Finset.sum_congr rfl fun i _ => by
      congr 1
      exact Finset.sum_congr rfl fun c _ => by rw [exp_log (hs c)]
  refine ⟨fun logpdf s s' v hp h => ?_, fun logpdf fitc s s' v hp h => ?_, fun logpdf fitc minW s s' v h => ?_⟩
  · rw [← key logpdf s fun c => add_pos_of_nonneg_of_pos (hp c) (by positivity)]
    simp only [movmStep, Option.map_eq_some_iff] at h
    obtain ⟨th, -, h⟩ := h
    exact ((Prod.mk.inj h).1).symm
  · rw [← key logpdf s fun c => add_pos_of_nonneg_of_pos (hp c) (by positivity)]
    simp only [mocdStep] at h
    cases hth : allOk fun c => mocdComp fitc (resp (logGamma lwOffset logpdf a s.p s.th) c) (s.th c) with
    | error e => rw [hth] at h; simp [Except.map] at h
    | ok th =>
      rw [hth] at h
      simp only [Except.map, Except.ok.injEq] at h
      exact ((Prod.mk.inj h).1).symm
  · simp only [mokjStep] at h
    cases hth : allOk fun c => fitc (resp (logGamma lwClip logpdf a s.p s.th) c) (s.th c) with
    | error e => rw [hth] at h; simp [Except.map] at h
    | ok th =>
      rw [hth] at h
      simp only [Except.map, Except.ok.injEq] at h
      obtain ⟨rfl, rfl⟩ := Prod.mk.inj h
      simp only [mixNLL, logNorm, logGamma, lwClip, exp_add]
      congr 1
      exact Finset.sum_congr rfl fun i _ => by
        congr 1
        exact Finset.sum_congr rfl fun c _ => by
          rw [exp_log (lt_max_of_lt_right (by positivity))]

end Verif.Props
