import Verif.Props.ClusterSym
import Verif.Lemmas.Mixture
import Verif.Model.DistVonMises
import Mathlib.Data.List.FinRange

/-! # C134: the von Mises mixture depends neither on the zero direction, nor on the order of the observations, nor on
the names of the components -/

set_option autoImplicit false

namespace Verif.Props

open Real Verif Verif.Spec

variable {n K : ℕ}

/-- Specification: the log density sees the angle between observation and mean direction only. -/
def SeesAngle (logpdf : ℝ × ℝ → ℝ → ℝ) : Prop :=
  ∀ t m m' k x x', Turn t m m' → Turn t x x' → logpdf (m', k) x' = logpdf (m, k) x

/-- Specification: the second mixture is the first one with component `c` renamed to `σ c` and all mean directions
turned by `t`; weights and concentrations are the same. -/
def SameMixture (σ : Equiv.Perm (Fin K)) (t : ℝ) (s s' : MixState (ℝ × ℝ) K) : Prop :=
  ∀ c, s'.p (σ c) = s.p c ∧ (s'.th (σ c)).2 = (s.th c).2 ∧ Turn t (s.th c).1 (s'.th (σ c)).1

private lemma meanR_perm {a w b v : List ℝ} (h1 : a.length = w.length) (h2 : b.length = v.length)
    (hp : (a.zip w).Perm (b.zip v)) : circMeanAndR a w = circMeanAndR b v := by
  obtain ⟨e1, e2⟩ := moment_perm h1 h2 hp 1
  rw [circMeanAndR_eq, circMeanAndR_eq, e1, e2]

private lemma zip_ofFn {α β : Type} (f : Fin n → α) (g : Fin n → β) :
    (List.ofFn f).zip (List.ofFn g) = List.ofFn fun i => (f i, g i) := by
  apply List.ext_getElem <;> simp

private lemma zip_ones (l : List ℝ) : l.zip (ones l) = l.map fun x => (x, 1) := by
  induction l with
  | nil => rfl
  | cons x xs ih => simpa [ones] using ih

private lemma ones_turn {t : ℝ} {a b : List ℝ} (h : List.Forall₂ (Turn t) a b) : ones b = ones a := by
  simp only [ones, List.map_const', h.length_eq]

private lemma allSome_none {Θ : Type} : ∀ {K : ℕ} {f : Fin K → Option Θ}, allSome f = none ↔ ∃ c, f c = none
  | 0, f => by simp [allSome]
  | K + 1, f => by
    rw [Fin.exists_fin_succ, allSome]
    cases h0 : f 0 with
    | none => simp
    | some x =>
      have := allSome_none (f := fun i => f i.succ)
      simp [this]

private lemma allSome_rel {Θ : Type} (σ : Equiv.Perm (Fin K)) (R : Θ → Θ → Prop) {f f' : Fin K → Option Θ}
    (h : ∀ c, (f c = none ∧ f' (σ c) = none) ∨ ∃ x y, f c = some x ∧ f' (σ c) = some y ∧ R x y) :
    (allSome f = none ∧ allSome f' = none) ∨
      ∃ g g', allSome f = some g ∧ allSome f' = some g' ∧ ∀ c, R (g c) (g' (σ c)) := by
  by_cases hn : ∃ c, f c = none
  · obtain ⟨c, hc⟩ := hn
    refine Or.inl ⟨allSome_none.2 ⟨c, hc⟩, allSome_none.2 ⟨σ c, ?_⟩⟩
    rcases h c with ⟨-, h2⟩ | ⟨x, y, h1, -⟩
    · exact h2
    · rw [hc] at h1; cases h1
  · push Not at hn
    have hex : ∀ c, ∃ x y, f c = some x ∧ f' (σ c) = some y ∧ R x y := fun c => (h c).resolve_left fun h' => hn c h'.1
    choose x y h1 h2 h3 using hex
    refine Or.inr ⟨x, fun c => y (σ.symm c), allSome_eq.2 h1, allSome_eq.2 fun c => ?_, fun c => by simpa using h3 c⟩
    have := h2 (σ.symm c)
    rwa [Equiv.apply_symm_apply] at this

private lemma comp_rel {t : ℝ} (τ : Equiv.Perm (Fin n)) {a a' w w' : Fin n → ℝ} {th th' : ℝ × ℝ}
    (ha : ∀ i, Turn t (a (τ i)) (a' i)) (hw : ∀ i, w' i = w (τ i)) (hk : Turn t th.1 th'.1) :
    (movmComp a w th = none ∧ movmComp a' w' th' = none) ∨
      ∃ x y, movmComp a w th = some x ∧ movmComp a' w' th' = some y ∧ (y.2 = x.2 ∧ Turn t x.1 y.1) := by
  have hsum : ∑ i, w' i = ∑ i, w i := by
    simp only [hw]; exact Equiv.sum_comp τ w
  have hw' : w' = w ∘ τ := funext hw
  unfold movmComp
  rw [hsum]
  split_ifs
  · exact Or.inr ⟨_, _, rfl, rfl, rfl, hk⟩
  · have hp : circMeanAndR (List.ofFn (a ∘ τ)) (List.ofFn w') = circMeanAndR (List.ofFn a) (List.ofFn w) := by
      refine meanR_perm (by simp) (by simp) ?_
      rw [zip_ofFn, zip_ofFn, hw']
      exact Equiv.Perm.ofFn_comp_perm τ fun i => (a i, w i)
    have hf : List.Forall₂ (Turn t) (List.ofFn (a ∘ τ)) (List.ofFn a') := by
      rw [List.forall₂_iff_get]
      refine ⟨by simp, fun i h1 h2 => ?_⟩
      simpa using ha ⟨i, by simpa using h1⟩
    rw [← hp]
    rcases meanR_turn hf (List.ofFn w') with ⟨h1, h2⟩ | ⟨m, m', r, h1, h2, h3⟩
    · rw [h1, h2]; exact Or.inl ⟨rfl, rfl⟩
    · rw [h1, h2]
      rcases h3 with ⟨rfl, rfl⟩ | ⟨x, y, rfl, rfl, h3⟩
      · exact Or.inl ⟨rfl, rfl⟩
      · exact Or.inr ⟨_, _, rfl, rfl, rfl, h3⟩

private lemma step_rel {logpdf : ℝ × ℝ → ℝ → ℝ} (hl : SeesAngle logpdf) {t : ℝ} (σ : Equiv.Perm (Fin K))
    (τ : Equiv.Perm (Fin n)) {a a' : Fin n → ℝ} (ha : ∀ i, Turn t (a (τ i)) (a' i)) {s s' : MixState (ℝ × ℝ) K}
    (hs : SameMixture σ t s s') :
    (movmStep logpdf a s = none ∧ movmStep logpdf a' s' = none) ∨
      ∃ v q q', movmStep logpdf a s = some (v, q) ∧ movmStep logpdf a' s' = some (v, q') ∧ SameMixture σ t q q' := by
  have hlg : ∀ c i, logGamma lwOffset logpdf a' s'.p s'.th (σ c) i = logGamma lwOffset logpdf a s.p s.th c (τ i) := by
    intro c i
    obtain ⟨h1, h2, h3⟩ := hs c
    unfold logGamma
    have := hl t _ _ (s.th c).2 _ _ h3 (ha i)
    rw [h1, ← this, ← h2]
  unfold movmStep
  simp only
  generalize logGamma lwOffset logpdf a' s'.p s'.th = lg' at *
  generalize logGamma lwOffset logpdf a s.p s.th = lg at *
  have hnorm : ∀ i, logNorm lg' i = logNorm lg (τ i) := by
    intro i
    unfold logNorm
    rw [← Equiv.sum_comp σ]
    simp only [hlg]
  have hresp : ∀ c i, resp lg' (σ c) i = resp lg c (τ i) := by
    intro c i
    rw [resp, resp, hlg, hnorm]
  have hnll : mixNLL lg' = mixNLL lg := by
    unfold mixNLL
    simp only [hnorm]
    rw [Equiv.sum_comp τ (logNorm lg)]
  have hsum : ∀ c, ∑ i, resp lg' (σ c) i = ∑ i, resp lg c i := by
    intro c
    simp only [hresp]
    exact Equiv.sum_comp τ (resp lg c)
  have htot : ∑ c, ∑ i, resp lg' c i = ∑ c, ∑ i, resp lg c i := by
    rw [← Equiv.sum_comp σ]
    simp only [hsum]
  rcases allSome_rel σ (fun x y : ℝ × ℝ => y.2 = x.2 ∧ Turn t x.1 y.1)
    (f := fun c => movmComp a (resp lg c) (s.th c)) (f' := fun c => movmComp a' (resp lg' c) (s'.th c)) (fun c => comp_rel τ ha (fun i => hresp c i) (hs c).2.2) with ⟨h1, h2⟩ | ⟨g, g', h1, h2, h3⟩
  · rw [h1, h2]; exact Or.inl ⟨rfl, rfl⟩
  · rw [h1, h2]
    refine Or.inr ⟨_, _, _, rfl, by rw [hnll]; rfl, fun c => ⟨?_, h3 c⟩⟩
    simp only [mixWeights, hsum, htot]

private noncomputable def initComp (a : Fin n → ℝ) (labels : Fin n → Fin K) (c : Fin K) : Option (ℝ × ℝ) :=
  let subset := (List.finRange n).filter (fun i => decide (labels i = c)) |>.map a
  (circMeanAndR subset (ones subset)).bind fun mr => mr.1.map fun m => (m, max (circKappa mr.2 none) (1 / 10 ^ 3))

private lemma movmInit_eq (a : Fin n → ℝ) (labels : Fin n → Fin K) : movmInit a labels =
    (allSome (initComp a labels)).map fun th => ⟨fun _ => 1 / K, th⟩ := rfl

private lemma init_rel {t : ℝ} (σ : Equiv.Perm (Fin K)) (τ : Equiv.Perm (Fin n)) {a a' : Fin n → ℝ}
    (ha : ∀ i, Turn t (a (τ i)) (a' i)) (labels : Fin n → Fin K) :
    (movmInit a labels = none ∧ movmInit a' (fun i => σ (labels (τ i))) = none) ∨
      ∃ s s', movmInit a labels = some s ∧ movmInit a' (fun i => σ (labels (τ i))) = some s' ∧ SameMixture σ t s s' := by
  have key : ∀ c, (initComp a labels c = none ∧ initComp a' (fun i => σ (labels (τ i))) (σ c) = none) ∨
      ∃ x y, initComp a labels c = some x ∧ initComp a' (fun i => σ (labels (τ i))) (σ c) = some y ∧
        (y.2 = x.2 ∧ Turn t x.1 y.1) := by
    intro c
    unfold initComp
    simp only [EmbeddingLike.apply_eq_iff_eq]
    have hp : (((List.finRange n).filter fun i => decide (labels (τ i) = c)).map (a ∘ τ)).Perm
        (((List.finRange n).filter fun i => decide (labels i = c)).map a) := by
      rw [← List.map_map]
      refine List.Perm.map a ?_
      have : (((List.finRange n).filter fun i => decide (labels (τ i) = c)).map τ) =
          ((List.finRange n).map τ).filter fun i => decide (labels i = c) := by
        rw [List.filter_map]; rfl
      rw [this]
      exact (Equiv.Perm.map_finRange_perm τ).filter _
    have hf : List.Forall₂ (Turn t) (((List.finRange n).filter fun i => decide (labels (τ i) = c)).map (a ∘ τ))
        (((List.finRange n).filter fun i => decide (labels (τ i) = c)).map a') := by
      rw [List.forall₂_map_left_iff, List.forall₂_map_right_iff, List.forall₂_same]
      exact fun i _ => ha i
    generalize ((List.finRange n).filter fun i => decide (labels (τ i) = c)).map (a ∘ τ) = l1 at hp hf
    generalize ((List.finRange n).filter fun i => decide (labels (τ i) = c)).map a' = l2 at hf ⊢
    generalize ((List.finRange n).filter fun i => decide (labels i = c)).map a = l3 at hp ⊢
    have he : circMeanAndR l3 (ones l3) = circMeanAndR l1 (ones l1) := by
      refine (meanR_perm (length_ones _).symm (length_ones _).symm ?_).symm
      rw [zip_ones, zip_ones]
      exact hp.map _
    rw [he, ones_turn hf]
    rcases meanR_turn hf (ones l1) with ⟨h1, h2⟩ | ⟨m, m', r, h1, h2, h3⟩
    · rw [h1, h2]; exact Or.inl ⟨rfl, rfl⟩
    · rw [h1, h2]
      rcases h3 with ⟨rfl, rfl⟩ | ⟨x, y, rfl, rfl, h3⟩
      · exact Or.inl ⟨rfl, rfl⟩
      · exact Or.inr ⟨_, _, rfl, rfl, rfl, h3⟩
  rw [movmInit_eq, movmInit_eq]
  rcases allSome_rel σ (fun x y : ℝ × ℝ => y.2 = x.2 ∧ Turn t x.1 y.1) key with ⟨h1, h2⟩ | ⟨g, g', h1, h2, h3⟩
  · rw [h1, h2]; exact Or.inl ⟨rfl, rfl⟩
  · rw [h1, h2]; exact Or.inr ⟨_, _, rfl, rfl, fun c => ⟨rfl, h3 c⟩⟩

/-- Specification: the same recorded likelihoods, convergence flag and number of passes, and related final states. -/
def SameRun {S : Type} (R : S → S → Prop) (r r' : EMResult S) : Prop :=
  r'.nLL = r.nLL ∧ r'.converged = r.converged ∧ r'.iters = r.iters ∧ R r.state r'.state

private lemma loop_rel {S : Type} (R : S → S → Prop) {step step' : S → Option (ℝ × S)}
    (h : ∀ s s', R s s' → (step s = none ∧ step' s' = none) ∨
      ∃ v q q', step s = some (v, q) ∧ step' s' = some (v, q') ∧ R q q') (burnin : ℕ) (threshold : ℝ)
    (prev : Bool × Option ℕ) :
    ∀ (k it : ℕ) (last : Option ℝ) (hist : List ℝ) (s s' : S), R s s' →
      (emLoop (fun s => .ok (step s)) burnin threshold prev k it last hist s = .ok none ∧
        emLoop (fun s => .ok (step' s)) burnin threshold prev k it last hist s' = .ok none) ∨
      ∃ r r', emLoop (fun s => .ok (step s)) burnin threshold prev k it last hist s = .ok (some r) ∧
        emLoop (fun s => .ok (step' s)) burnin threshold prev k it last hist s' = .ok (some r') ∧ SameRun R r r' := by
  intro k
  induction k with
  | zero => intro it last hist s s' hs; exact Or.inr ⟨_, _, rfl, rfl, rfl, rfl, rfl, hs⟩
  | succ k ih =>
    intro it last hist s s' hs
    rw [emLoop, emLoop]
    simp only [Except.bind]
    rcases h s s' hs with ⟨h1, h2⟩ | ⟨v, q, q', h1, h2, h3⟩
    · rw [h1, h2]; exact Or.inl ⟨rfl, rfl⟩
    · rw [h1, h2]
      simp only
      split_ifs
      · exact Or.inr ⟨_, _, rfl, rfl, rfl, rfl, rfl, h3⟩
      · exact ih _ _ _ _ _ h3

private lemma labels_rel (σ : Equiv.Perm (Fin K)) (τ : Equiv.Perm (Fin n)) (m : ℕ) (draws : List (Fin n → Fin K)) :
    initLabels m (draws.map fun l i => σ (l (τ i))) = (initLabels m draws).map fun l i => σ (l (τ i)) := by
  classical
  have hs : ∀ l : Fin n → Fin K, (∀ c, ∃ i, σ (l (τ i)) = c) ↔ ∀ c, ∃ i, l i = c := by
    intro l
    constructor
    · intro h c
      obtain ⟨i, hi⟩ := h (σ c)
      exact ⟨τ i, σ.injective hi⟩
    · intro h c
      obtain ⟨i, hi⟩ := h (σ.symm c)
      exact ⟨τ.symm i, by simp [hi]⟩
  unfold initLabels
  split_ifs
  · rfl
  · rw [← List.map_take, List.find?_map]
    simp only [Function.comp_def, hs]
    cases (List.take m draws).find? fun l => decide (∀ c, ∃ i, l i = c) <;> rfl

/-- **C134.** Fit the von Mises mixture to the same directions, listed in another order (`τ`) and measured from another
zero (`t`, whole turns added at will), starting from the same grouping with the groups numbered differently (`σ`): the run
raises the same error, is undefined together with the first, or records the same likelihoods, stops at the same pass and
ends with the same mixture. -/
theorem C134_movm {logpdf : ℝ × ℝ → ℝ → ℝ} (hl : SeesAngle logpdf) (unit : String) (fullCycle : ℝ) (burnin nIters : ℕ)
    (threshold : ℝ) (prev : Bool × Option ℕ) (draws : List (Fin n → Fin K)) {X X' : Fin n → ℝ}
    (σ : Equiv.Perm (Fin K)) (τ : Equiv.Perm (Fin n)) (t : ℝ)
    (h : ∀ i, Turn t (toRad unit fullCycle (X (τ i))) (toRad unit fullCycle (X' i))) :
    (∃ e, movmFit logpdf unit fullCycle burnin nIters threshold prev draws X = .error e ∧
      movmFit logpdf unit fullCycle burnin nIters threshold prev (draws.map fun l i => σ (l (τ i))) X' = .error e) ∨
    (movmFit logpdf unit fullCycle burnin nIters threshold prev draws X = .ok none ∧
      movmFit logpdf unit fullCycle burnin nIters threshold prev (draws.map fun l i => σ (l (τ i))) X' = .ok none) ∨
    ∃ r r', movmFit logpdf unit fullCycle burnin nIters threshold prev draws X = .ok (some r) ∧
      movmFit logpdf unit fullCycle burnin nIters threshold prev (draws.map fun l i => σ (l (τ i))) X' = .ok (some r') ∧
      SameRun (SameMixture σ t) r r' := by
  unfold movmFit
  split_ifs
  · exact Or.inl ⟨_, rfl, rfl⟩
  · simp only
    rw [labels_rel]
    cases hd : initLabels 100 draws with
    | error e => exact Or.inl ⟨e, rfl, rfl⟩
    | ok labels =>
      simp only [Except.bind, Except.map]
      rcases init_rel (a := fun i => toRad unit fullCycle (X i)) (a' := fun i => toRad unit fullCycle (X' i)) σ τ h labels with ⟨h1, h2⟩ | ⟨s, s', h1, h2, h3⟩
      · rw [h1, h2]; exact Or.inr (Or.inl ⟨rfl, rfl⟩)
      · rw [h1, h2]
        exact Or.inr (loop_rel _ (fun s s' hs => step_rel (a := fun i => toRad unit fullCycle (X i))
          (a' := fun i => toRad unit fullCycle (X' i)) hl σ τ h hs) burnin threshold prev nIters 0 none [] s s' h3)

/-- The log density of the class is of this kind. -/
theorem C134_vonmises : SeesAngle fun th x => vmLogpdf x th.1 th.2 := by
  intro t m m' k x x' hm hx
  simp only [vmLogpdf]
  rw [cos_eq_of_sameDir (turn_sub hx hm)]

/-- Witness: three angles turned by 1, listed in another order, with the two groups exchanged. -/
example : ∀ i, Turn 1 (toRad "radian" 360 ((![0, 2, 3] : Fin 3 → ℝ) (Equiv.swap 0 2 i)))
    (toRad "radian" 360 ((![4, 3 - 2 * π, 1] : Fin 3 → ℝ) i)) := by
  intro i
  fin_cases i <;> simp [toRad, Turn, Equiv.swap_apply_def]
  · exact ⟨0, by norm_num⟩
  · exact ⟨-1, by push_cast; ring⟩
  · exact ⟨0, by norm_num⟩

end Verif.Props
