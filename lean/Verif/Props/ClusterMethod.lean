import Verif.Model.ClusterMethod
import Verif.Lemmas.Mixture
import Verif.Lemmas.Descriptive
import Verif.Lemmas.Distn
import Verif.Lemmas.Base
import Verif.Props.LikelihoodB

/-!
# Properties of the estimator used by `MoCD`
-/

namespace Verif.Props

open Real

set_option autoImplicit false

/-! ## Candidates -/

/-- Asking `fit` for method `m` gives the `np` parameters `v`: the first call does, or it raises `TypeError` and the
call without `return_info` does. -/
def Works (np : ℕ) (fit : Option String → Bool → Except PyErr (List ℝ)) (m : Option String) (v : List ℝ) : Prop :=
  v.length = np ∧ (fit m true = .ok v ∨ fit m true = .error .typeError ∧ fit m false = .ok v)

private lemma tryMethod_ok {np : ℕ} {fit : Option String → Bool → Except PyErr (List ℝ)} {m : Option String}
    {v : List ℝ} : tryMethod np fit m = .ok v ↔ Works np fit m v := by
  have key : ∀ r : Except PyErr (List ℝ), r.bind (arrayToParams np) = .ok v ↔ v.length = np ∧ r = .ok v := by
    intro r
    cases r with
    | error e => simp [Except.bind]
    | ok u =>
      simp only [Except.bind, arrayToParams, Except.ok.injEq]
      constructor
      · intro h
        split_ifs at h with hu
        cases h
        exact ⟨hu, rfl⟩
      · rintro ⟨h, rfl⟩
        rw [if_pos h]
  rw [tryMethod, key, Works]
  refine and_congr_right fun _ => ?_
  cases h : fit m true with
  | ok u => simp
  | error e => cases e <;> simp

/-- `_fit_component` returns the estimate of the first method that works and raises `RuntimeError` exactly when none
does. -/
theorem C127_first (np : ℕ) (fit : Option String → Bool → Except PyErr (List ℝ)) (cand : List (Option String)) :
    (∀ v, firstMethod np fit cand = .ok v ↔
      ∃ pre m post, cand = pre ++ m :: post ∧ (∀ k ∈ pre, ∀ u, ¬ Works np fit k u) ∧ Works np fit m v) ∧
    ∀ e, firstMethod np fit cand = .error e ↔ e = .runtimeError ∧ ∀ k ∈ cand, ∀ u, ¬ Works np fit k u := by
  induction cand with
  | nil =>
    refine ⟨fun v => ?_, fun e => ?_⟩
    · simp [firstMethod]
    · simp [firstMethod, eq_comm]
  | cons k ks ih =>
    cases hk : tryMethod np fit k with
    | ok u =>
      have hw : Works np fit k u := tryMethod_ok.1 hk
      have e0 : firstMethod np fit (k :: ks) = .ok u := by rw [firstMethod, hk]
      refine ⟨fun v => ?_, fun e => ?_⟩
      · rw [e0]
        constructor
        · rintro ⟨⟩
          exact ⟨[], k, ks, rfl, by simp, hw⟩
        · rintro ⟨pre, m, post, h, hpre, hm⟩
          cases pre with
          | nil =>
            simp only [List.nil_append, List.cons.injEq] at h
            rw [← h.1] at hm
            have := tryMethod_ok.2 hm
            rw [hk] at this
            exact this
          | cons a as =>
            simp only [List.cons_append, List.cons.injEq] at h
            exact absurd hw (by rw [h.1]; exact hpre a (by simp) u)
      · rw [e0]
        simp only [reduceCtorEq, false_iff]
        rintro ⟨-, h⟩
        exact h k (by simp) u hw
    | error e' =>
      have hw : ∀ u, ¬ Works np fit k u := fun u hu => by
        have := tryMethod_ok.2 hu
        rw [hk] at this
        cases this
      have e0 : firstMethod np fit (k :: ks) = firstMethod np fit ks := by rw [firstMethod, hk]
      refine ⟨fun v => ?_, fun e => ?_⟩
      · rw [e0, ih.1 v]
        constructor
        · rintro ⟨pre, m, post, rfl, hpre, hm⟩
          refine ⟨k :: pre, m, post, rfl, fun a ha => ?_, hm⟩
          rcases List.mem_cons.1 ha with rfl | ha
          · exact hw
          · exact hpre a ha
        · rintro ⟨pre, m, post, h, hpre, hm⟩
          cases pre with
          | nil =>
            simp only [List.nil_append, List.cons.injEq] at h
            rw [← h.1] at hm
            exact absurd hm (hw v)
          | cons a as =>
            simp only [List.cons_append, List.cons.injEq] at h
            exact ⟨as, m, post, h.2, fun b hb => hpre b (by simp [hb]), hm⟩
      · rw [e0, ih.2 e]
        refine and_congr_right fun _ => ?_
        constructor
        · intro h a ha
          rcases List.mem_cons.1 ha with rfl | ha
          · exact hw
          · exact h a ha
        · exact fun h a ha => h a (by simp [ha])

/-- A case of `C127_first`: a distribution that knows only `"mle"` and does not take `return_info`. -/
example : firstMethod 1 (fun m info => if info = true then .error .typeError else
    if m = some "mle" then .ok [3] else .error .valueError) [some "moments", some "mle"] = .ok [3] := by
  refine ((C127_first _ _ _).1 _).2 ⟨[some "moments"], some "mle", [], rfl, ?_, ?_⟩
  · intro k hk u hu
    simp only [List.mem_singleton] at hk
    subst hk
    obtain ⟨-, h | h⟩ := hu <;> simp at h
  · exact ⟨rfl, Or.inr ⟨by simp, by simp⟩⟩

/-! ## The default never maximises the likelihood -/

/-- With valid data and weights `fit(method="moments")` succeeds, whatever the optimiser; otherwise `fit` fails with
every method. -/
private lemma family_cases (T T' : FitTools) (rnd : ℝ → ℤ) (name : String) (data : List ℝ) (w : Option (List ℝ)) :
    (mocdFamilyFit T rnd name data w "moments" = mocdFamilyFit T' rnd name data w "moments" ∧
      ∃ v, mocdFamilyFit T rnd name data w "moments" = .ok v) ∨
    ((data = [] ∨ ∃ e, fitWeights data.length w = .error e) ∧
      ∀ (T : FitTools) m, mocdFamilyFit T rnd name data w m = .error .valueError) := by
  have hfw : ∀ e, fitWeights data.length w = .error e → e = .valueError := by
    intro e h
    unfold fitWeights at h
    split at h
    · split_ifs at h
      cases h; rfl
    · split_ifs at h
      · cases h; rfl
      · split at h
        · cases h; rfl
        · split_ifs at h
          cases h; rfl
  have hlen : (data.map wrap2pi).length = data.length := List.length_map ..
  by_cases hd : data = []
  · right
    subst hd
    refine ⟨Or.inl rfl, fun T m => ?_⟩
    unfold mocdFamilyFit
    split_ifs <;> simp [cardFit, cwFit, wnFit, wcFit, vmFit]
  · have h0 : ¬ data.length = 0 := fun h => hd (List.length_eq_zero_iff.1 h)
    cases hw : fitWeights data.length w with
    | error e =>
      right
      have := hfw e hw
      subst this
      refine ⟨Or.inr ⟨_, rfl⟩, fun T m => ?_⟩
      unfold mocdFamilyFit
      split_ifs <;> simp [cardFit, cwFit, wnFit, wcFit, vmFit, hw, hd, bind, Except.bind]
    | ok u =>
      left
      unfold mocdFamilyFit
      split_ifs <;> simp [cardFit, cwFit, wnFit, wcFit, vmFit, hw, hd, bind, Except.bind]

private lemma auto_cand {lower : String → String} {m : String} (hm : lower m = "auto") {name : String}
    (hn : name ∈ mocdAllowed) :
    mocdCandidates lower none (.str m) name = [some "moments", some "mle"] := by
  have h : ¬ (name = "vonmises_flattopped" ∨ name = "inverse_batschelet") := by
    rintro (rfl | rfl) <;> revert hn <;> decide
  simp only [mocdCandidates, normaliseFitMethod, if_pos hm]
  rw [if_neg fun h' => h h'.2]

/-- The component fit of a mixture with `fit_method="auto"`, the default: for each accepted distribution, data and
weights with a positive total, it is the method-of-moments estimate, which no optimiser has any part in. -/
theorem C127_auto (rnd : ℝ → ℤ) (lower : String → String) (hl : lower "moments" = "moments") {m : String}
    (hm : lower m = "auto") {name : String} (hn : name ∈ mocdAllowed) {data w : List ℝ} (hd : data ≠ [])
    (hw : w.length = data.length) (h0 : ∀ v ∈ w, 0 ≤ v) (hs : 1 / 10 ^ 12 < w.sum) (current : Option (List ℝ)) :
    ∃ v : ℝ × ℝ, ∀ T : FitTools, mocdFamilyFit T rnd name data (some w) "moments" = .ok v ∧
      fitComponent 2 (pairFit lower (mocdFamilyFit T rnd name) data) (mocdCandidates lower none (.str m) name) w
        current = .ok [v.1, v.2] := by
  have hfw : fitWeights data.length (some w) = .ok w := by
    have hp : (0 : ℝ) < 1 / 10 ^ 12 := by positivity
    unfold fitWeights
    simp only
    rw [if_neg (by push Not; exact h0), show broadcastTo data.length w = some w from ?_]
    · simp only
      rw [if_neg (not_le.2 (hp.trans hs))]
    · unfold broadcastTo
      rw [if_pos hw]
  have T0 : FitTools := ⟨fun _ _ _ => ⟨true, 0⟩, fun _ _ => ⟨true, 0⟩, fun _ _ => 0⟩
  have key : ∀ T : FitTools, mocdFamilyFit T0 rnd name data (some w) "moments" =
      mocdFamilyFit T rnd name data (some w) "moments" ∧
      ∃ v, mocdFamilyFit T0 rnd name data (some w) "moments" = .ok v := by
    intro T
    rcases family_cases T0 T rnd name data (some w) with h | ⟨h | ⟨e, h⟩, -⟩
    · exact h
    · exact absurd h hd
    · rw [hfw] at h; cases h
  obtain ⟨v, hv⟩ := (key T0).2
  refine ⟨v, fun T => ?_⟩
  have hT : mocdFamilyFit T rnd name data (some w) "moments" = .ok v := by rw [← (key T).1, hv]
  refine ⟨hT, ?_⟩
  rw [auto_cand hm hn]
  unfold fitComponent
  rw [if_neg (not_le.2 hs)]
  refine ((C127_first _ _ _).1 _).2 ⟨[], some "moments", [some "mle"], rfl, by simp, rfl, Or.inl ?_⟩
  simp only [pairFit, Option.getD_some, hl, hT, Except.map]

/-- Hence a mixture fitted with the default method is the same for every optimiser: no component is ever fitted by
maximum likelihood. -/
theorem C127_auto_run {n K : ℕ} (T T' : FitTools) (rnd : ℝ → ℤ) (lower : String → String)
    (hl : lower "moments" = "moments") (D : Family (ℝ × ℝ)) {m : String} (hm : lower m = "auto") {name : String}
    (hn : name ∈ mocdAllowed) (unit : String) (fullCycle : ℝ) (burnin nIters : ℕ) (threshold : ℝ)
    (draws : List (Fin n → Fin K)) (X : Fin n → ℝ) :
    mocdRun T rnd lower D name none (.str m) unit fullCycle burnin nIters threshold draws X =
      mocdRun T' rnd lower D name none (.str m) unit fullCycle burnin nIters threshold draws X := by
  have key : ∀ data w : List ℝ, firstMethod 2 (pairFit lower (mocdFamilyFit T rnd name) data w)
        [some "moments", some "mle"] =
      firstMethod 2 (pairFit lower (mocdFamilyFit T' rnd name) data w) [some "moments", some "mle"] := by
    intro data w
    rcases family_cases T T' rnd name data (some w) with ⟨h1, v, h2⟩ | ⟨-, h⟩
    · have e : ∀ T : FitTools, mocdFamilyFit T rnd name data (some w) "moments" = .ok v →
          firstMethod 2 (pairFit lower (mocdFamilyFit T rnd name) data w) [some "moments", some "mle"] =
            .ok [v.1, v.2] := fun T hT => by
        refine ((C127_first _ _ _).1 _).2 ⟨[], some "moments", [some "mle"], rfl, by simp, rfl, Or.inl ?_⟩
        simp only [pairFit, Option.getD_some, hl, hT, Except.map]
      rw [e T h2, e T' (h1 ▸ h2)]
    · have e : ∀ T : FitTools,
          firstMethod 2 (pairFit lower (mocdFamilyFit T rnd name) data w) [some "moments", some "mle"] =
            .error .runtimeError := fun T => by
        refine ((C127_first _ _ _).2 _).2 ⟨rfl, fun k _ u hu => ?_⟩
        obtain ⟨-, h' | ⟨h', -⟩⟩ := hu <;> simp [pairFit, h T, Except.map] at h'
      rw [e T, e T']
  have key2 : ∀ data w : List ℝ, fitComponent 2 (pairFit lower (mocdFamilyFit T rnd name) data)
        [some "moments", some "mle"] w none =
      fitComponent 2 (pairFit lower (mocdFamilyFit T' rnd name) data) [some "moments", some "mle"] w none := by
    intro data w
    simp only [fitComponent]
    rw [key, key]
  simp only [mocdRun, auto_cand hm hn, key2]

/-! ## The choice of the method -/

private lemma not_special {name : String} (hn : name ∈ mocdAllowed) :
    ¬ (name = "vonmises_flattopped" ∨ name = "inverse_batschelet") := by
  rintro (rfl | rfl) <;> revert hn <;> decide

private lemma cand_eq {lower : String → String} {name : String} (hn : name ∈ mocdAllowed) (m : FitMethod) :
    (∀ k, mocdCandidates lower (some k) m name = [some (lower k)]) ∧
      mocdCandidates lower none m name = normaliseFitMethod lower m := by
  constructor
  · intro k
    simp only [mocdCandidates]
    rw [if_neg fun h' => not_special hn h'.2]
  · simp only [mocdCandidates]
    rw [if_neg fun h' => not_special hn h'.2]

/-- How the method is chosen, for each accepted distribution: `fit_kwargs["method"]` replaces `fit_method`; a name
other than `"auto"` has the same effect in both places and as a list of one name; `None` and the empty list mean
maximum likelihood. -/
theorem C127_choice {n K : ℕ} (T : FitTools) (rnd : ℝ → ℤ) (lower : String → String)
    (hmle : lower "mle" = "mle") (D : Family (ℝ × ℝ)) {name : String} (hn : name ∈ mocdAllowed)
    (unit : String) (fullCycle : ℝ) (burnin nIters : ℕ) (threshold : ℝ) (draws : List (Fin n → Fin K)) (X : Fin n → ℝ) :
    let run := fun kw m => mocdRun T rnd lower D name kw m unit fullCycle burnin nIters threshold draws X
    (∀ k m m', run (some k) m = run (some k) m') ∧
    (∀ k m, lower k ≠ "auto" → run (some k) m = run none (.str k) ∧ run none (.list [some k]) = run none (.str k)) ∧
    run none .none = run none (.str "mle") ∧ run none (.list []) = run none (.str "mle") := by
  have key : ∀ data w : List ℝ, firstMethod 2 (pairFit lower (mocdFamilyFit T rnd name) data w) [none] =
      firstMethod 2 (pairFit lower (mocdFamilyFit T rnd name) data w) [some "mle"] := by
    intro data w
    simp only [firstMethod, tryMethod, pairFit, Option.getD_some, Option.getD_none]
  have key2 : ∀ data w : List ℝ, fitComponent 2 (pairFit lower (mocdFamilyFit T rnd name) data) [none] w none =
      fitComponent 2 (pairFit lower (mocdFamilyFit T rnd name) data) [some "mle"] w none := by
    intro data w
    simp only [fitComponent]
    rw [key, key]
  have hne : lower "mle" ≠ "auto" := by rw [hmle]; decide
  have h1 : normaliseFitMethod lower (.str "mle") = [some "mle"] := by
    rw [normaliseFitMethod, if_neg hne, hmle]
  refine ⟨fun k m m' => ?_, fun k m hk => ⟨?_, ?_⟩, ?_, ?_⟩
  · simp only [mocdRun, (cand_eq hn _).1]
  · simp only [mocdRun, (cand_eq hn _).1, (cand_eq hn _).2, normaliseFitMethod, if_neg hk]
  · simp only [mocdRun, (cand_eq hn _).2, normaliseFitMethod, if_neg hk]
    simp
  · simp only [mocdRun, (cand_eq hn _).2, h1]
    simp only [normaliseFitMethod, key2]
  · simp only [mocdRun, (cand_eq hn _).2, h1]
    simp only [normaliseFitMethod, if_true, key2]

/-- The constructor accepts a circular distribution with positive numbers of clusters and iterations, a nonnegative
burn-in, a positive threshold, one of the two units, and one of five names. For those five the rule preferring
maximum likelihood for the flat-topped von Mises and the inverse Batschelet distribution never applies, and for these
two the constructor raises `ValueError`. -/
theorem C127_accepts (isCircular : Bool) (nClusters nIters burnin : ℤ) (threshold : ℝ) (unit name : String) :
    (mocdCheck isCircular nClusters nIters burnin threshold unit name = .ok () ↔
      isCircular = true ∧ 1 ≤ nClusters ∧ 1 ≤ nIters ∧ 0 ≤ burnin ∧ 0 < threshold ∧
        (unit = "degree" ∨ unit = "radian") ∧
        (name = "vonmises" ∨ name = "wrapcauchy" ∨ name = "wrapnorm" ∨ name = "cardioid" ∨ name = "cartwright")) ∧
    (mocdCheck isCircular nClusters nIters burnin threshold unit name = .ok () → ∀ lower kw m,
      mocdCandidates lower kw m name = match kw with
        | some k => [some (lower k)]
        | none => normaliseFitMethod lower m) ∧
    (mocdCheck true 3 100 20 (1 / 10 ^ 6) "degree" "vonmises_flattopped" = .error .valueError ∧
      mocdCheck true 3 100 20 (1 / 10 ^ 6) "degree" "inverse_batschelet" = .error .valueError) := by
  have key : mocdCheck isCircular nClusters nIters burnin threshold unit name = .ok () ↔
      isCircular = true ∧ 1 ≤ nClusters ∧ 1 ≤ nIters ∧ 0 ≤ burnin ∧ 0 < threshold ∧
        (unit = "degree" ∨ unit = "radian") ∧ name ∈ mocdAllowed := by
    unfold mocdCheck
    split_ifs with h1 h2 h3 h4 h5 h6 h7
    · simp [h1]
    · constructor
      · intro h; cases h
      · rintro ⟨_, h, _⟩; omega
    · constructor
      · intro h; cases h
      · rintro ⟨_, _, h, _⟩; omega
    · constructor
      · intro h; cases h
      · rintro ⟨_, _, _, h, _⟩; omega
    · constructor
      · intro h; cases h
      · rintro ⟨_, _, _, _, h, _⟩; linarith
    · constructor
      · intro h; cases h
      · rintro ⟨_, _, _, _, _, h, _⟩; tauto
    · refine iff_of_true rfl ⟨by simpa using h1, by omega, by omega, by omega, by linarith, by tauto, h7⟩
    · constructor
      · intro h; cases h
      · rintro ⟨_, _, _, _, _, _, h⟩; exact absurd h h7
  refine ⟨?_, fun h lower kw m => ?_, ?_, ?_⟩
  · rw [key]
    have hm : name ∈ mocdAllowed ↔ (name = "vonmises" ∨ name = "wrapcauchy" ∨ name = "wrapnorm" ∨
        name = "cardioid" ∨ name = "cartwright") := by
      unfold mocdAllowed
      simp only [List.mem_cons, List.not_mem_nil, or_false]
      generalize (name = "cardioid") = p1
      generalize (name = "cartwright") = p2
      generalize (name = "wrapnorm") = p3
      generalize (name = "wrapcauchy") = p4
      generalize (name = "vonmises") = p5
      tauto
    rw [hm]
  · have hn := (key.1 h).2.2.2.2.2.2
    unfold mocdCandidates
    simp only
    rw [if_neg fun h' => not_special hn h'.2]
    cases kw <;> rfl
  · have h : "vonmises_flattopped" ∉ mocdAllowed := fun h => not_special h (Or.inl rfl)
    unfold mocdCheck
    rw [if_neg (by simp), if_neg (by norm_num), if_neg (by norm_num), if_neg (by norm_num), if_neg (by norm_num),
      if_neg (fun h => h.1 rfl), if_pos h]
  · have h : "inverse_batschelet" ∉ mocdAllowed := fun h => not_special h (Or.inr rfl)
    unfold mocdCheck
    rw [if_neg (by simp), if_neg (by norm_num), if_neg (by norm_num), if_neg (by norm_num), if_neg (by norm_num),
      if_neg (fun h => h.1 rfl), if_pos h]

example : mocdCheck true 3 100 20 (1 / 10 ^ 6) "degree" "vonmises" = .ok () :=
  (C127_accepts _ _ _ _ _ _ _).1.2 (by norm_num)

/-- The update of a component passes its present parameters to the fit, which returns them when the weights are too
small; fitting without them and keeping them in that case gives the same. -/
theorem C127_current {n : ℕ} (np : ℕ) (fit : List ℝ → Option String → Bool → Except PyErr (List ℝ))
    (cand : List (Option String)) (w : Fin n → ℝ) (current : List ℝ) :
    (∑ i, w i ≤ 1 / 10 ^ 12 → fitComponent np fit cand (List.ofFn w) (some current) = .ok current) ∧
    mocdComp (fun w => fitComponent np fit cand (List.ofFn w) none) w current =
      if isclose (∑ i, w i) 0 rtolDefault atolDefault then .ok current
      else fitComponent np fit cand (List.ofFn w) (some current) := by
  have hs : (List.ofFn w).sum = ∑ i, w i := List.sum_ofFn
  refine ⟨fun h => ?_, ?_⟩
  · unfold fitComponent; rw [if_pos (by rw [hs]; exact h)]
  · unfold mocdComp fitComponent
    simp only [hs]
    split_ifs <;> rfl

/-- A method unknown to the distributions makes every fit fail. This includes `"auto"` as `fit_kwargs["method"]`,
which only `fit_method` understands. -/
theorem C127_unknown {n K : ℕ} (T : FitTools) (rnd : ℝ → ℤ) (lower : String → String) (D : Family (ℝ × ℝ))
    {name : String} (hn : name ∈ mocdAllowed) {k : String}
    (hk : lower (lower k) ∉ ["moments", "mle", "analytical", "numerical"]) (m : FitMethod)
    (unit : String) (fullCycle : ℝ) (burnin nIters : ℕ) (threshold : ℝ) (draws : List (Fin n → Fin K)) (X : Fin n → ℝ) :
    ∃ e, mocdRun T rnd lower D name (some k) m unit fullCycle burnin nIters threshold draws X = .error e := by
  simp only [List.mem_cons, List.not_mem_nil, or_false, not_or] at hk
  obtain ⟨k1, k2, k3, k4⟩ := hk
  have hf : ∀ data w, ∃ e, mocdFamilyFit T rnd name data w (lower (lower k)) = .error e := by
    intro data w
    rcases family_cases T T rnd name data w with ⟨-, v, h2⟩ | ⟨-, h⟩
    · have hd : data ≠ [] := by
        rintro rfl
        unfold mocdFamilyFit at h2
        split_ifs at h2 <;> simp [cardFit, cwFit, wnFit, wcFit, vmFit] at h2
      cases hw : fitWeights data.length w with
      | error e =>
        exfalso
        unfold mocdFamilyFit at h2
        split_ifs at h2 <;> simp [cardFit, cwFit, wnFit, wcFit, vmFit, hw, hd, bind, Except.bind] at h2
      | ok u =>
        unfold mocdFamilyFit
        split_ifs <;> simp [cardFit, cwFit, wnFit, wcFit, vmFit, hw, hd, bind, Except.bind, k1, k2, k3, k4]
    · exact ⟨_, h T _⟩
  have hc : ∀ data w, fitComponent 2 (pairFit lower (mocdFamilyFit T rnd name) data)
      (mocdCandidates lower (some k) m name) w none = .error .runtimeError := by
    intro data w
    have e : ∀ u, firstMethod 2 (pairFit lower (mocdFamilyFit T rnd name) data u)
        (mocdCandidates lower (some k) m name) = .error .runtimeError := by
      intro u
      refine ((C127_first _ _ _).2 _).2 ⟨rfl, fun j hj v hv => ?_⟩
      rw [(cand_eq hn m).1, List.mem_singleton] at hj
      subst hj
      obtain ⟨e, he⟩ := hf data (some u)
      obtain ⟨-, h' | ⟨-, h'⟩⟩ := hv <;> simp [pairFit, he, Except.map] at h'
    unfold fitComponent
    split_ifs
    · exact e _
    · exact e _
  by_contra hne
  push Not at hne
  cases hr : mocdRun T rnd lower D name (some k) m unit fullCycle burnin nIters threshold draws X with
  | error e => exact hne e hr
  | ok r =>
    simp only [mocdRun, mocdFit, hc] at hr
    split_ifs at hr with h0
    obtain ⟨labels, -, hr⟩ := except_bind_ok hr
    obtain ⟨s, hs, -⟩ := except_bind_ok hr
    obtain ⟨th, hth, -⟩ := except_map_ok hs
    have := (allOk_eq.1 hth) (labels ⟨0, Nat.pos_of_ne_zero h0⟩)
    cases this

/-- A case of `C127_unknown`: `fit_kwargs={"method": "auto"}` for a von Mises mixture. -/
example (T : FitTools) (rnd : ℝ → ℤ) (m : FitMethod) (draws : List (Fin 3 → Fin 2)) (X : Fin 3 → ℝ) (D : Family (ℝ × ℝ)) :
    ∃ e, mocdRun T rnd id D "vonmises" (some "auto") m "degree" 360 20 100 (1 / 10 ^ 6) draws X = .error e :=
  C127_unknown T rnd id D (by decide) (by decide) m _ _ _ _ _ _ _

end Verif.Props
