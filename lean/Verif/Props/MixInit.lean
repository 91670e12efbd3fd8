import Mathlib.Data.Fintype.Perm
import Mathlib.Data.Fintype.BigOperators
import Verif.Props.Mixture

/-!
# C139: how often the random start of a mixture succeeds
-/

set_option autoImplicit false

namespace Verif.Props

open Verif Verif.Spec Finset

/-! ## Specification -/

/-- No group is empty. -/
def NoneEmpty {n K : ℕ} (l : Fin n → Fin K) : Prop := ∀ c, ∃ i, l i = c

open Classical in
/-- The number of allocations of `n` observations to `K` groups that leave no group empty. -/
noncomputable def fullCount (n K : ℕ) : ℕ := (univ.filter fun l : Fin n → Fin K => NoneEmpty l).card

open Classical in
/-- The share of the sequences of `A` random allocations after which `P` holds of the call with these draws. -/
noncomputable def share (A n K : ℕ) (P : List (Fin n → Fin K) → Prop) : ℝ :=
  ((univ.filter fun d : Fin A → Fin n → Fin K => P (List.ofFn d)).card : ℝ) / ((K : ℝ) ^ n) ^ A

/-! ## Helpers -/

private lemma emLoop_ok {S : Type} (step : S → Option (ℝ × S)) (burnin : ℕ) (threshold : ℝ) (prev : Bool × Option ℕ)
    (k it : ℕ) (last : Option ℝ) (hist : List ℝ) (s : S) :
    emLoop (fun s => .ok (step s)) burnin threshold prev k it last hist s ≠ .error .runtimeError := by
  induction k generalizing it last hist s with
  | zero => rw [emLoop]; simp
  | succ k ih =>
    rw [emLoop]
    simp only [Except.bind]
    split
    · simp
    · split_ifs
      · simp
      · exact ih _ _ _ _

private lemma fails_iff {n K : ℕ} (hn : 0 < n) (hK : K ≤ n) (logpdf : ℝ × ℝ → ℝ → ℝ) (unit : String) (fullCycle : ℝ)
    (burnin nIters : ℕ) (threshold : ℝ) (prev : Bool × Option ℕ) (X : Fin n → ℝ) (d : Fin 100 → Fin n → Fin K) :
    movmFit logpdf unit fullCycle burnin nIters threshold prev (List.ofFn d) X = .error .runtimeError
      ↔ ∀ j, ¬ NoneEmpty (d j) := by
  have ht : (List.ofFn d).take 100 = List.ofFn d := List.take_of_length_le (List.length_ofFn).le
  constructor
  · intro h j hj
    rw [movmFit, if_neg hn.ne', initLabels, if_neg (by omega), ht] at h
    cases hf : (List.ofFn d).find? fun l => decide (∀ c, ∃ i, l i = c) with
    | none =>
      rw [List.find?_eq_none] at hf
      exact hf (d j) ((List.mem_ofFn' _ _).2 ⟨j, rfl⟩) (decide_eq_true hj)
    | some l =>
      rw [hf] at h
      simp only [Except.bind] at h
      split at h
      · simp at h
      · exact emLoop_ok _ _ _ _ _ _ _ _ _ h
  · intro h
    refine (C58_refused logpdf unit fullCycle burnin nIters threshold prev (List.ofFn d) X).2 hn hK fun l hl => ?_
    rw [ht] at hl
    obtain ⟨j, rfl⟩ := (List.mem_ofFn' _ _).1 hl
    have := h j
    unfold NoneEmpty at this
    push Not at this
    exact this

private lemma factorial_le {K : ℕ} (hK : 10 ≤ K) : 2500 * K.factorial ≤ K ^ K := by
  induction K, hK using Nat.le_induction with
  | base => decide
  | succ K hK ih =>
    rw [Nat.factorial_succ, pow_succ]
    have : K ^ K ≤ (K + 1) ^ K := Nat.pow_le_pow_left (by omega) K
    nlinarith

private lemma empty_card {n K : ℕ} [DecidablePred fun l : Fin n → Fin K => ¬ NoneEmpty l] :
    ((univ.filter fun l : Fin n → Fin K => ¬ NoneEmpty l).card : ℝ) = (K : ℝ) ^ n - fullCount n K := by
  classical
  have := card_filter_add_card_filter_not (s := (univ : Finset (Fin n → Fin K))) fun l => NoneEmpty l
  rw [card_univ, Fintype.card_fun, Fintype.card_fin, Fintype.card_fin] at this
  unfold fullCount
  rw [eq_sub_iff_add_eq, add_comm]
  have h : (univ.filter fun l : Fin n → Fin K => NoneEmpty l).card
      + (univ.filter fun l : Fin n → Fin K => ¬ NoneEmpty l).card = K ^ n := by
    convert this
  calc _ = (((univ.filter fun l : Fin n → Fin K => NoneEmpty l).card
      + (univ.filter fun l : Fin n → Fin K => ¬ NoneEmpty l).card : ℕ) : ℝ) := by push_cast; congr!
    _ = _ := by rw [h]; push_cast; rfl

private lemma share_empty {A n K : ℕ} (hK0 : 0 < K) :
    share A n K (fun draws => ∀ l ∈ draws, ¬ NoneEmpty l) = (1 - (fullCount n K : ℝ) / (K : ℝ) ^ n) ^ A := by
  classical
  have hpos : (0 : ℝ) < (K : ℝ) ^ n := by positivity
  have h1 : (univ.filter fun d : Fin A → Fin n → Fin K => ∀ l ∈ List.ofFn d, ¬ NoneEmpty l)
      = Fintype.piFinset fun _ : Fin A => univ.filter fun l : Fin n → Fin K => ¬ NoneEmpty l := by
    ext d
    simp only [mem_filter, mem_univ, true_and, Fintype.mem_piFinset, List.mem_ofFn', Set.forall_mem_range]
  have h3 : ((univ.filter fun d : Fin A → Fin n → Fin K => ∀ l ∈ List.ofFn d, ¬ NoneEmpty l).card : ℝ)
      = ((K : ℝ) ^ n - fullCount n K) ^ A := by
    rw [h1, Fintype.card_piFinset, prod_const, card_univ, Fintype.card_fin, Nat.cast_pow, empty_card]
  unfold share
  calc _ = ((K : ℝ) ^ n - fullCount n K) ^ A / ((K : ℝ) ^ n) ^ A := by
        rw [← h3]
        congr!
    _ = _ := by rw [← div_pow, sub_div, div_self hpos.ne']

private lemma share_mono {A n K : ℕ} {P Q : List (Fin n → Fin K) → Prop}
    (h : ∀ d : Fin A → Fin n → Fin K, P (List.ofFn d) → Q (List.ofFn d)) : share A n K P ≤ share A n K Q := by
  classical
  unfold share
  refine div_le_div_of_nonneg_right ?_ (by positivity)
  exact_mod_cast card_le_card fun d hd => by
    simp only [mem_filter, mem_univ, true_and] at hd ⊢
    exact h d hd

private lemma full_all (n : ℕ) : fullCount n n = n.factorial := by
  classical
  unfold fullCount
  have e : (univ.filter fun l : Fin n → Fin n => NoneEmpty l)
      = (univ : Finset (Equiv.Perm (Fin n))).image fun (σ : Equiv.Perm (Fin n)) (i : Fin n) => σ i := by
    ext l
    simp only [mem_filter, mem_univ, true_and, mem_image]
    constructor
    · intro h
      have hs : Function.Surjective l := h
      exact ⟨Equiv.ofBijective l ⟨Finite.injective_iff_surjective.2 hs, hs⟩, rfl⟩
    · rintro ⟨σ, rfl⟩ c
      exact σ.surjective c
  calc _ = (univ.filter fun l : Fin n → Fin n => NoneEmpty l).card := by congr!
    _ = _ := by
      rw [e, card_image_of_injective _ (fun σ τ h => Equiv.ext fun i => congrFun h i), card_univ, Fintype.card_perm, Fintype.card_fin]

private lemma one_each_pow {n : ℕ} (hn : 10 ≤ n) (A : ℕ) :
    1 - A / 2500 ≤ (1 - (fullCount n n : ℝ) / (n : ℝ) ^ n) ^ A := by
  rw [full_all]
  have hp : (0 : ℝ) < (n : ℝ) ^ n := by
    have : (0 : ℝ) < n := by exact_mod_cast (by omega : 0 < n)
    positivity
  have hq : (n.factorial : ℝ) / (n : ℝ) ^ n ≤ 1 / 2500 := by
    rw [div_le_div_iff₀ hp (by norm_num)]
    have : (2500 * n.factorial : ℝ) ≤ (n : ℝ) ^ n := by exact_mod_cast factorial_le hn
    linarith
  have hb := one_add_mul_le_pow (a := -((n.factorial : ℝ) / (n : ℝ) ^ n)) (by linarith) A
  rw [← sub_eq_add_neg] at hb
  refine le_trans ?_ hb
  have : (A : ℝ) * ((n.factorial : ℝ) / (n : ℝ) ^ n) ≤ A * (1 / 2500) := mul_le_mul_of_nonneg_left hq (Nat.cast_nonneg A)
  linarith

private lemma emLoop_ok' {S : Type} (burnin : ℕ) (threshold : ℝ) (prev : Bool × Option ℕ)
    (k it : ℕ) (last : Option ℝ) (hist : List ℝ) (s : S) (step' : S → Except PyErr (Option (ℝ × S)))
    (h : ∀ s, ∃ r, step' s = .ok r) :
    emLoop step' burnin threshold prev k it last hist s ≠ .error .runtimeError := by
  induction k generalizing it last hist s with
  | zero => rw [emLoop]; simp
  | succ k ih =>
    rw [emLoop]
    obtain ⟨r, hr⟩ := h s
    rw [hr]
    simp only [Except.bind]
    split
    · simp
    · split_ifs
      · simp
      · exact ih _ _ _ _

private lemma allOk_ok {Θ : Type} : ∀ {K : ℕ} {f : Fin K → Except PyErr Θ}, (∀ c, ∃ v, f c = .ok v) → ∃ g, allOk f = .ok g
  | 0, _, _ => ⟨_, rfl⟩
  | K + 1, f, h => by
    obtain ⟨x, hx⟩ := h 0
    obtain ⟨g, hg⟩ := allOk_ok (f := fun i => f i.succ) fun c => h c.succ
    exact ⟨Fin.cons x g, by rw [allOk, hx]; simp only [Except.bind, hg, Except.map]⟩

private lemma cd_fails {Θ : Type} {n K : ℕ} (hn : 0 < n) (hK : K ≤ n) (logpdf : Θ → ℝ → ℝ) (fit1 : List ℝ → Except PyErr Θ)
    (fitc : (Fin n → ℝ) → Except PyErr Θ) (unit : String) (fullCycle : ℝ) (burnin nIters : ℕ) (threshold : ℝ)
    (prev : Bool × Option ℕ) (X : Fin n → ℝ) (d : Fin 128 → Fin n → Fin K) :
    ((∀ l ∈ List.ofFn d, ¬ NoneEmpty l) →
      mocdFit logpdf fit1 fitc unit fullCycle burnin nIters threshold prev (List.ofFn d) X = .error .runtimeError) ∧
    ((∀ x, ∃ v, fit1 x = .ok v) → (∀ w, ∃ v, fitc w = .ok v) →
      mocdFit logpdf fit1 fitc unit fullCycle burnin nIters threshold prev (List.ofFn d) X = .error .runtimeError →
      ∀ l ∈ List.ofFn d, ¬ NoneEmpty l) := by
  have ht : (List.ofFn d).take 128 = List.ofFn d := List.take_of_length_le (List.length_ofFn).le
  rw [mocdFit, if_neg hn.ne']
  simp only [initLabels]
  rw [if_neg (by omega), ht]
  refine ⟨fun h => ?_, fun h1 hc h l hl hne => ?_⟩
  · have hf : (List.ofFn d).find? (fun l => decide (∀ c, ∃ i, l i = c)) = none := by
      rw [List.find?_eq_none]
      intro l hl hd
      have h' : ∀ c, ∃ i, l i = c := of_decide_eq_true hd
      exact h l hl h'
    rw [hf]; rfl
  · cases hf : (List.ofFn d).find? fun l => decide (∀ c, ∃ i, l i = c) with
    | none =>
      rw [List.find?_eq_none] at hf
      exact hf l hl (decide_eq_true hne)
    | some l =>
      rw [hf] at h
      simp only [Except.bind] at h
      obtain ⟨g, hg⟩ := allOk_ok (f := fun c => fit1 ((List.finRange n).filter (fun i => decide (l i = c)) |>.map
        fun i => toRad unit fullCycle (X i))) fun c => h1 _
      simp only [mocdInit] at h
      rw [hg] at h
      simp only [Except.map] at h
      refine emLoop_ok' _ _ _ _ _ _ _ _ _ (fun s => ?_) h
      obtain ⟨g', hg'⟩ := allOk_ok (f := fun c => mocdComp fitc (resp (logGamma lwOffset logpdf
        (fun i => toRad unit fullCycle (X i)) s.p s.th) c) (s.th c)) fun c => by
          unfold mocdComp
          split_ifs
          · exact ⟨_, rfl⟩
          · exact ⟨_, rfl⟩
          · exact hc _
      exact ⟨_, by simp only [mocdStep]; rw [hg']; rfl⟩

/-! ## Properties -/

/-- C139. The random start fails (the fit of a mixture of von Mises distributions raises RuntimeError, whatever the data and the
options) for the share `(1 - full / Kⁿ) ^ 100` of all draws, where `full` counts the allocations without empty group. -/
theorem C139_share {n K : ℕ} (hn : 0 < n) (hK0 : 0 < K) (hK : K ≤ n) (logpdf : ℝ × ℝ → ℝ → ℝ) (unit : String) (fullCycle : ℝ)
    (burnin nIters : ℕ) (threshold : ℝ) (prev : Bool × Option ℕ) (X : Fin n → ℝ) :
    share 100 n K (fun draws => movmFit logpdf unit fullCycle burnin nIters threshold prev draws X = .error .runtimeError)
      = (1 - (fullCount n K : ℝ) / (K : ℝ) ^ n) ^ 100 := by
  rw [← share_empty hK0]
  have key := fails_iff hn hK logpdf unit fullCycle burnin nIters threshold prev X
  refine le_antisymm (share_mono fun d h l hl => ?_) (share_mono fun d h => (key d).2 fun j => h _ ((List.mem_ofFn' _ _).2 ⟨j, rfl⟩))
  obtain ⟨j, rfl⟩ := (List.mem_ofFn' _ _).1 hl
  exact (key d).1 h j

/-- C139. As many groups as observations are accepted by the check of the arguments, but from ten on the fit raises
RuntimeError for at least 96 per cent of all draws. -/
theorem C139_one_each {n : ℕ} (hn : 10 ≤ n) (logpdf : ℝ × ℝ → ℝ → ℝ) (unit : String) (fullCycle : ℝ)
    (burnin nIters : ℕ) (threshold : ℝ) (prev : Bool × Option ℕ) (X : Fin n → ℝ) :
    0.96 ≤ share 100 n n (fun draws =>
      movmFit logpdf unit fullCycle burnin nIters threshold prev draws X = .error .runtimeError) := by
  rw [C139_share (by omega) (by omega) le_rfl]
  exact le_trans (by norm_num) (one_each_pow hn 100)

/-- C139. In general the share of failures is at most `(K (1 - 1/K)ⁿ) ^ 100`. -/
theorem C139_bound {n K : ℕ} (hn : 0 < n) (hK0 : 0 < K) (hK : K ≤ n) (logpdf : ℝ × ℝ → ℝ → ℝ) (unit : String) (fullCycle : ℝ)
    (burnin nIters : ℕ) (threshold : ℝ) (prev : Bool × Option ℕ) (X : Fin n → ℝ) :
    share 100 n K (fun draws => movmFit logpdf unit fullCycle burnin nIters threshold prev draws X = .error .runtimeError)
      ≤ (K * (1 - 1 / (K : ℝ)) ^ n) ^ 100 := by
  classical
  have hK' : (0 : ℝ) < K := by exact_mod_cast hK0
  rw [C139_share hn hK0 hK]
  have hsub : (univ.filter fun l : Fin n → Fin K => ¬ NoneEmpty l)
      ⊆ (univ : Finset (Fin K)).biUnion fun c => Fintype.piFinset fun _ : Fin n => (univ : Finset (Fin K)).erase c := by
    intro l hl
    have h := (mem_filter.1 hl).2
    unfold NoneEmpty at h
    push Not at h
    obtain ⟨c, hc⟩ := h
    exact mem_biUnion.2 ⟨c, mem_univ c, Fintype.mem_piFinset.2 fun i => mem_erase.2 ⟨hc i, mem_univ _⟩⟩
  have hcard : (univ.filter fun l : Fin n → Fin K => ¬ NoneEmpty l).card ≤ K * (K - 1) ^ n := by
    refine (card_le_card hsub).trans (card_biUnion_le.trans (le_of_eq ?_))
    simp [Fintype.card_piFinset, card_erase_of_mem]
  have h2 := card_filter_add_card_filter_not (s := (univ : Finset (Fin n → Fin K))) fun l => NoneEmpty l
  rw [card_univ, Fintype.card_fun, Fintype.card_fin, Fintype.card_fin] at h2
  have h3 : (K : ℝ) ^ n - fullCount n K ≤ K * ((K : ℝ) - 1) ^ n := by
    have e1 : (fullCount n K : ℝ) + ((univ.filter fun l : Fin n → Fin K => ¬ NoneEmpty l).card : ℝ) = (K : ℝ) ^ n := by
      unfold fullCount
      exact_mod_cast h2
    have e2 : ((univ.filter fun l : Fin n → Fin K => ¬ NoneEmpty l).card : ℝ) ≤ K * ((K : ℝ) - 1) ^ n := by
      have : (((K - 1 : ℕ) : ℝ)) = (K : ℝ) - 1 := by rw [Nat.cast_sub hK0, Nat.cast_one]
      rw [← this]
      exact_mod_cast hcard
    linarith
  have hp : (0 : ℝ) < (K : ℝ) ^ n := by positivity
  have h4 : 1 - (fullCount n K : ℝ) / (K : ℝ) ^ n ≤ K * (1 - 1 / (K : ℝ)) ^ n := by
    have : 1 - 1 / (K : ℝ) = ((K : ℝ) - 1) / K := by field_simp
    rw [this, div_pow, ← mul_div_assoc, le_div_iff₀ hp, sub_mul, one_mul, div_mul_cancel₀ _ hp.ne']
    exact h3
  have h5 : 0 ≤ 1 - (fullCount n K : ℝ) / (K : ℝ) ^ n := by
    rw [sub_nonneg, div_le_one hp]
    have : fullCount n K ≤ K ^ n := by
      unfold fullCount
      omega
    exact_mod_cast this
  exact pow_le_pow_left₀ h5 h4 100

/-- C139. Mixtures of other distributions draw up to 128 times. Their fit raises RuntimeError for at least the share
`(1 - full / Kⁿ) ^ 128` of all draws, and for exactly this share if the component fits never fail. -/
theorem C139_cd {Θ : Type} {n K : ℕ} (hn : 0 < n) (hK0 : 0 < K) (hK : K ≤ n) (logpdf : Θ → ℝ → ℝ)
    (fit1 : List ℝ → Except PyErr Θ) (fitc : (Fin n → ℝ) → Except PyErr Θ) (unit : String) (fullCycle : ℝ)
    (burnin nIters : ℕ) (threshold : ℝ) (prev : Bool × Option ℕ) (X : Fin n → ℝ) :
    (1 - (fullCount n K : ℝ) / (K : ℝ) ^ n) ^ 128 ≤ share 128 n K (fun draws =>
      mocdFit logpdf fit1 fitc unit fullCycle burnin nIters threshold prev draws X = .error .runtimeError) ∧
    ((∀ x, ∃ v, fit1 x = .ok v) → (∀ w, ∃ v, fitc w = .ok v) → share 128 n K (fun draws =>
      mocdFit logpdf fit1 fitc unit fullCycle burnin nIters threshold prev draws X = .error .runtimeError)
      = (1 - (fullCount n K : ℝ) / (K : ℝ) ^ n) ^ 128) := by
  have key := cd_fails hn hK logpdf fit1 fitc unit fullCycle burnin nIters threshold prev X
  rw [← share_empty hK0]
  refine ⟨share_mono fun d h => (key d).1 h, fun h1 hc => le_antisymm (share_mono fun d h => (key d).2 h1 hc h)
    (share_mono fun d h => (key d).1 h)⟩

/-- C139. So with as many groups as observations, from ten on, they raise RuntimeError for at least 94 per cent of all
draws. -/
theorem C139_cd_one_each {Θ : Type} {n : ℕ} (hn : 10 ≤ n) (logpdf : Θ → ℝ → ℝ)
    (fit1 : List ℝ → Except PyErr Θ) (fitc : (Fin n → ℝ) → Except PyErr Θ) (unit : String) (fullCycle : ℝ)
    (burnin nIters : ℕ) (threshold : ℝ) (prev : Bool × Option ℕ) (X : Fin n → ℝ) :
    0.94 ≤ share 128 n n (fun draws =>
      mocdFit logpdf fit1 fitc unit fullCycle burnin nIters threshold prev draws X = .error .runtimeError) := by
  refine le_trans ?_ (C139_cd (by omega) (by omega) le_rfl logpdf fit1 fitc unit fullCycle burnin nIters threshold prev X).1
  exact le_trans (by norm_num) (one_each_pow hn 128)

/-- With the default of five groups and at least eight observations the start fails for less than one in ten million draws. -/
example {n : ℕ} (hn : 8 ≤ n) (logpdf : ℝ × ℝ → ℝ → ℝ) (X : Fin n → ℝ) :
    share 100 n 5 (fun draws => movmFit logpdf "degree" 360 30 100 (1 / 10 ^ 16) (false, none) draws X = .error .runtimeError)
      < 1 / 10 ^ 7 := by
  refine lt_of_le_of_lt (C139_bound (by omega) (by norm_num) (by omega) _ _ _ _ _ _ _ _) ?_
  have h : (1 - 1 / ((5 : ℕ) : ℝ)) ^ n ≤ (1 - 1 / ((5 : ℕ) : ℝ)) ^ 8 :=
    pow_le_pow_of_le_one (by norm_num) (by norm_num) hn
  calc _ ≤ (((5 : ℕ) : ℝ) * (1 - 1 / ((5 : ℕ) : ℝ)) ^ 8) ^ 100 := by
        gcongr
    _ < _ := by norm_num

end Verif.Props
