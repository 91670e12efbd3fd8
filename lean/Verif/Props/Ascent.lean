import Verif.Props.MixtureB

/-! # C94: one EM pass does not lower the likelihood -/

set_option autoImplicit false

namespace Verif.Props

open Real Verif Verif.Spec

variable {Θ : Type} {K n : ℕ}

/-- Specification: whenever the component fit succeeds its result maximises the weighted log-likelihood. -/
def IsWeightedMLE (logpdf : Θ → ℝ → ℝ) (a : Fin n → ℝ) (fitc : (Fin n → ℝ) → Except PyErr Θ) : Prop :=
  ∀ w t', (∀ i, 0 ≤ w i) → fitc w = .ok t' → ∀ t, ∑ i, w i * logpdf t (a i) ≤ ∑ i, w i * logpdf t' (a i)

private lemma ascent (logpdf : Θ → ℝ → ℝ) (a : Fin n → ℝ) (fitc : (Fin n → ℝ) → Except PyErr Θ)
    (hf : IsWeightedMLE logpdf a fitc) (hn : 0 < n) {s s' : MixState Θ K} {v : ℝ} (hs : IsWeights s.p)
    (h : mocdStep logpdf fitc a s = .ok (v, s')) :
    v = mixNLL (logGamma lwOffset logpdf a s.p s.th) ∧ IsWeights s'.p ∧
      mixNLL (logGamma lwOffset logpdf a s'.p s'.th) ≤ v + n * K / 10 ^ 32 * log (10 ^ 32 + 1) := by
  have hK : 0 < K := by
    rcases Nat.eq_zero_or_pos K with rfl | h
    · have := hs.2
      simp at this
    · exact h
  simp only [mocdStep] at h
  set lg := logGamma lwOffset logpdf a s.p s.th with hlg
  cases hth : allOk fun c => mocdComp fitc (resp lg c) (s.th c) with
  | error e => rw [hth] at h; simp [Except.map] at h
  | ok th =>
    rw [hth] at h
    simp only [Except.map, Except.ok.injEq] at h
    obtain ⟨rfl, rfl⟩ := Prod.mk.inj h
    have hn' : (n : ℝ) ≠ 0 := Nat.cast_ne_zero.2 hn.ne'
    have htot : ∑ c, ∑ i, resp lg c i = n := resp_total lg hK
    have hw : IsWeights (mixWeights fun c => ∑ i, resp lg c i) :=
      ⟨fun c => mixWeights_nonneg (fun d => Finset.sum_nonneg fun i _ => (resp_pos _ d i).le) c,
        mixWeights_sum (by rw [htot]; exact hn')⟩
    refine ⟨rfl, hw, ?_⟩
    set p' := mixWeights fun c => ∑ i, resp lg c i with hp'
    have hp'n : ∀ c, ∑ i, resp lg c i = n * p' c := fun c => by
      rw [hp', mixWeights, htot]
      field_simp
    have hcomp : ∀ c, 0 ≤ ∑ i, resp lg c i * (logpdf (th c) (a i) - logpdf (s.th c) (a i)) := by
      intro c
      have := allOk_eq.1 hth c
      rw [mocdComp] at this
      have hz : th c = s.th c → 0 ≤ ∑ i, resp lg c i * (logpdf (th c) (a i) - logpdf (s.th c) (a i)) := by
        intro e
        simp [e]
      split_ifs at this with h1 h2
      · exact hz (Except.ok.inj this).symm
      · exact hz (Except.ok.inj this).symm
      · have := hf _ _ (fun i => (resp_pos lg c i).le) this (s.th c)
        simp only [mul_sub, Finset.sum_sub_distrib]
        linarith
    set lg' := logGamma lwOffset logpdf a p' th with hlg'
    have hgain : ∑ i, ∑ c, resp lg c i * (lg' c i - lg c i) ≤ ∑ i, (logNorm lg' i - logNorm lg i) :=
      Finset.sum_le_sum fun i _ => logNorm_gain lg lg' hK i
    have hsplit : ∑ i, ∑ c, resp lg c i * (lg' c i - lg c i) =
        n * ∑ c, p' c * (log (p' c + 1 / 10 ^ 32) - log (s.p c + 1 / 10 ^ 32)) +
          ∑ c, ∑ i, resp lg c i * (logpdf (th c) (a i) - logpdf (s.th c) (a i)) := by
      rw [Finset.sum_comm, Finset.mul_sum, ← Finset.sum_add_distrib]
      refine Finset.sum_congr rfl fun c _ => ?_
      rw [← mul_assoc, ← hp'n c, Finset.sum_mul, ← Finset.sum_add_distrib]
      refine Finset.sum_congr rfl fun i _ => ?_
      rw [hlg', hlg, logGamma, logGamma, lwOffset, lwOffset]
      ring
    have hg := offset_gibbs (e := 1 / 10 ^ 32) (by positivity) hs.1 hw.1 hs.2 hw.2
    have hnn : 0 ≤ ∑ c, ∑ i, resp lg c i * (logpdf (th c) (a i) - logpdf (s.th c) (a i)) :=
      Finset.sum_nonneg fun c _ => hcomp c
    have hlog : ((1 : ℝ) + 1 / 10 ^ 32) / (1 / 10 ^ 32) = 10 ^ 32 + 1 := by norm_num
    rw [hlog] at hg
    have hg' := mul_le_mul_of_nonneg_left hg (Nat.cast_nonneg (α := ℝ) n)
    rw [hsplit, Finset.sum_sub_distrib] at hgain
    simp only [mixNLL]
    have e : (n : ℝ) * -(K * (1 / 10 ^ 32) * log (10 ^ 32 + 1)) = -(n * K / 10 ^ 32 * log (10 ^ 32 + 1)) := by ring
    rw [e] at hg'
    linarith

/-- One pass of `MoCD.fit` with a component fit that maximises the weighted likelihood does not lower the
likelihood of the mixture, up to `n K 1e-32 ln(1e32 + 1)`, the effect of the `1e-32` added to the weights. -/
theorem C94_pass (logpdf : Θ → ℝ → ℝ) (a : Fin n → ℝ) (fitc : (Fin n → ℝ) → Except PyErr Θ)
    (hf : IsWeightedMLE logpdf a fitc) (hn : 0 < n) {s s' : MixState Θ K} {v : ℝ} (hs : IsWeights s.p)
    (h : mocdStep logpdf fitc a s = .ok (v, s')) :
    mixLogLik (fun t x => exp (logpdf t x)) (fun c => s.p c + 1 / 10 ^ 32) s.th a ≤
      mixLogLik (fun t x => exp (logpdf t x)) (fun c => s'.p c + 1 / 10 ^ 32) s'.th a +
        n * K / 10 ^ 32 * log (10 ^ 32 + 1) := by
  obtain ⟨h1, h2, h3⟩ := ascent logpdf a fitc hf hn hs h
  have e : ∀ s : MixState Θ K, (∀ c, 0 ≤ s.p c) → mixNLL (logGamma lwOffset logpdf a s.p s.th) =
      -mixLogLik (fun t x => exp (logpdf t x)) (fun c => s.p c + 1 / 10 ^ 32) s.th a := by
    intro s hp
    simp only [mixNLL, logNorm, logGamma, exp_add, mixLogLik]
    congr 1
    refine Finset.sum_congr rfl fun i _ => ?_
    congr 1
    refine Finset.sum_congr rfl fun c _ => ?_
    rw [lwOffset, exp_log (add_pos_of_nonneg_of_pos (hp c) (by positivity))]
  rw [h1, e s hs.1, e s' h2.1] at h3
  linarith

/-- Hence the recorded negative log-likelihoods do not increase, up to that amount. -/
theorem C94_run {logpdf : Θ → ℝ → ℝ} {fit1 : List ℝ → Except PyErr Θ} {fitc : (Fin n → ℝ) → Except PyErr Θ}
    {unit : String} {fullCycle : ℝ} {burnin nIters : ℕ} {threshold : ℝ} {prev : Bool × Option ℕ}
    {draws : List (Fin n → Fin K)} {X : Fin n → ℝ} {r : EMResult (MixState Θ K)}
    (hf : IsWeightedMLE logpdf (fun i => toRad unit fullCycle (X i)) fitc)
    (h : mocdFit logpdf fit1 fitc unit fullCycle burnin nIters threshold prev draws X = .ok (some r))
    (j : ℕ) (x y : ℝ) (hx : r.nLL[j]? = some x) (hy : r.nLL[j + 1]? = some y) :
    y ≤ x + n * K / 10 ^ 32 * log (10 ^ 32 + 1) := by
  rw [mocdFit] at h
  split_ifs at h with hn
  have hn' : 0 < n := Nat.pos_of_ne_zero hn
  cases hl : initLabels 128 draws with
  | error e => rw [hl] at h; simp [Except.bind] at h
  | ok labels =>
    have hK : 0 < K := lt_of_le_of_lt (Nat.zero_le _) (labels ⟨0, hn'⟩).isLt
    rw [hl] at h
    simp only [Except.bind] at h
    cases hi : mocdInit fit1 (fun i => toRad unit fullCycle (X i)) labels with
    | error e => rw [hi] at h; simp at h
    | ok s =>
      rw [hi] at h
      simp only at h
      have h0 : IsWeights s.p := by
        rw [mocdInit] at hi
        cases ht : allOk fun c => fit1 ((List.finRange n).filter (fun i => decide (labels i = c)) |>.map
          fun i => toRad unit fullCycle (X i)) with
        | error e => rw [ht] at hi; simp [Except.map] at hi
        | ok th =>
          rw [ht] at hi
          simp only [Except.map, Except.ok.injEq] at hi
          subst hi
          refine ⟨fun c => by positivity, ?_⟩
          simp only [Finset.sum_const, Finset.card_univ, Fintype.card_fin, nsmul_eq_mul]
          field_simp
      obtain ⟨⟨q, ⟨hq0, hq⟩, -⟩, -⟩ := C59_loop _ burnin threshold prev nIters s h
      have hok : ∀ (s : MixState Θ K) (v : ℝ) (s' : MixState Θ K),
          (mocdStep logpdf fitc (fun i => toRad unit fullCycle (X i)) s).map some = .ok (some (v, s')) →
          mocdStep logpdf fitc (fun i => toRad unit fullCycle (X i)) s = .ok (v, s') := by
        intro s v s' hst
        cases hm : mocdStep logpdf fitc (fun i => toRad unit fullCycle (X i)) s with
        | error e => rw [hm] at hst; simp [Except.map] at hst
        | ok o =>
          rw [hm] at hst
          simp only [Except.map, Except.ok.injEq, Option.some.injEq] at hst
          rw [hst]
      have hinv : ∀ k, k < r.nLL.length → IsWeights (q k).p := by
        intro k
        induction k with
        | zero => intro _; rw [hq0]; exact h0
        | succ k ih =>
          intro hk
          exact (ascent logpdf _ fitc hf hn' (ih (by omega))
            (hok _ _ _ (hq k _ (List.getElem?_eq_getElem (by omega))))).2.1
      have hlen : j + 1 < r.nLL.length := by
        by_contra hcon
        rw [List.getElem?_eq_none (by omega)] at hy
        simp at hy
      have h1 := ascent logpdf _ fitc hf hn' (hinv j (by omega)) (hok _ _ _ (hq j x hx))
      have h2 := ascent logpdf _ fitc hf hn' (hinv (j + 1) hlen) (hok _ _ _ (hq (j + 1) y hy))
      rw [h2.1]
      exact h1.2.2

open Classical in
/-- A family with an exact weighted fit: the densities proportional to `exp(cos x)` and `exp(-cos x)`. -/
example (a : Fin n → ℝ) : IsWeightedMLE (fun (b : Bool) x => if b then cos x else -cos x) a
    (fun w => .ok (decide (0 ≤ ∑ i, w i * cos (a i)))) := by
  intro w t' _ h t
  have h := Except.ok.inj h
  by_cases h0 : 0 ≤ ∑ i, w i * cos (a i)
  · have : t' = true := by rw [← h]; simpa using h0
    subst this
    cases t
    · simp only [mul_neg, Finset.sum_neg_distrib, Bool.false_eq_true, if_false, if_true]
      linarith
    · simp
  · have : t' = false := by rw [← h]; simpa using h0
    subst this
    cases t
    · simp
    · simp only [mul_neg, Finset.sum_neg_distrib, Bool.false_eq_true, if_false, if_true]
      linarith

end Verif.Props
