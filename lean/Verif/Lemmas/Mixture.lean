import Verif.Model.Clustering
import Verif.Props.EM
import Mathlib.Analysis.Convex.SpecificFunctions.Basic
import Mathlib.Analysis.Convex.Jensen
import Mathlib.Algebra.BigOperators.Field

/-! # Helper lemmas about the mixture model -/

set_option autoImplicit false

namespace Verif

open Real

lemma allSome_eq {Θ : Type} : ∀ {K : ℕ} {f : Fin K → Option Θ} {g : Fin K → Θ},
    allSome f = some g ↔ ∀ c, f c = some (g c)
  | 0, f, g => by
    simp only [allSome, Option.some.injEq]
    exact ⟨fun _ c => c.elim0, fun _ => funext fun c => c.elim0⟩
  | K + 1, f, g => by
    simp only [allSome, Option.bind_eq_some_iff, Option.map_eq_some_iff]
    constructor
    · rintro ⟨x, hx, g', hg, rfl⟩ c
      refine Fin.cases ?_ (fun d => ?_) c
      · simpa using hx
      · simpa using (allSome_eq.1 hg) d
    · intro h
      refine ⟨g 0, h 0, fun i => g i.succ, allSome_eq.2 fun i => h i.succ, ?_⟩
      exact Fin.cons_self_tail g

lemma allOk_eq {Θ : Type} : ∀ {K : ℕ} {f : Fin K → Except PyErr Θ} {g : Fin K → Θ},
    allOk f = .ok g ↔ ∀ c, f c = .ok (g c)
  | 0, f, g => by
    simp only [allOk, Except.ok.injEq]
    exact ⟨fun _ c => c.elim0, fun _ => funext fun c => c.elim0⟩
  | K + 1, f, g => by
    simp only [allOk]
    constructor
    · intro h
      cases h0 : f 0 with
      | error e => rw [h0] at h; simp [Except.bind] at h
      | ok x =>
        cases h1 : allOk fun i => f i.succ with
        | error e => rw [h0, h1] at h; simp [Except.bind, Except.map] at h
        | ok g' =>
          rw [h0, h1] at h
          simp only [Except.bind, Except.map, Except.ok.injEq] at h
          subst h
          intro c
          refine Fin.cases ?_ (fun d => ?_) c
          · simpa using h0
          · simpa using (allOk_eq.1 h1) d
    · intro h
      rw [h 0, allOk_eq.2 fun i => h i.succ]
      simp only [Except.bind, Except.map, Except.ok.injEq]
      exact Fin.cons_self_tail g

section

variable {K n : ℕ} (lg : Fin K → Fin n → ℝ)

lemma sum_exp_pos (hK : 0 < K) (i : Fin n) : 0 < ∑ c, exp (lg c i) :=
  Finset.sum_pos (fun c _ => exp_pos _) ⟨⟨0, hK⟩, Finset.mem_univ _⟩

lemma resp_eq (hK : 0 < K) (c : Fin K) (i : Fin n) : resp lg c i = exp (lg c i) / ∑ d, exp (lg d i) := by
  rw [resp, logNorm, exp_sub, exp_log (sum_exp_pos lg hK i)]

lemma resp_pos (c : Fin K) (i : Fin n) : 0 < resp lg c i := exp_pos _

lemma resp_sum (hK : 0 < K) (i : Fin n) : ∑ c, resp lg c i = 1 := by
  simp only [resp_eq lg hK]
  rw [← Finset.sum_div, div_self (sum_exp_pos lg hK i).ne']

lemma resp_total (hK : 0 < K) : ∑ c, ∑ i, resp lg c i = n := by
  rw [Finset.sum_comm]
  simp [resp_sum lg hK]

end

lemma mixWeights_nonneg {K : ℕ} {s : Fin K → ℝ} (h : ∀ c, 0 ≤ s c) (c : Fin K) : 0 ≤ mixWeights s c :=
  div_nonneg (h c) (Finset.sum_nonneg fun d _ => h d)

lemma mixWeights_sum {K : ℕ} {s : Fin K → ℝ} (h : ∑ c, s c ≠ 0) : ∑ c, mixWeights s c = 1 := by
  simp only [mixWeights]
  rw [← Finset.sum_div, div_self h]

lemma weightsClip_sum {K : ℕ} {s : Fin K → ℝ} {minW : ℝ} (hK : 0 < K) (hm : 0 < minW) :
    ∑ c, weightsClip minW s c = 1 := by
  simp only [weightsClip]
  rw [← Finset.sum_div, div_self]
  exact (Finset.sum_pos (fun c _ => lt_max_of_lt_right hm) ⟨⟨0, hK⟩, Finset.mem_univ _⟩).ne'

/-- An invariant of the step holds of the reported parameters. -/
lemma emFit_inv {S : Type} {step : S → Except PyErr (Option (ℝ × S))} {burnin : ℕ} {threshold : ℝ}
    {prev : Bool × Option ℕ} {nIters : ℕ} {start : S} {r : EMResult S} (P : S → Prop) (h0 : P start)
    (hstep : ∀ s v s', P s → step s = .ok (some (v, s')) → P s')
    (h : emFit step burnin threshold prev nIters start = .ok (some r)) : P r.state := by
  obtain ⟨⟨q, ⟨hq0, hq⟩, hr⟩, -⟩ := Props.C59_loop step burnin threshold prev nIters start h
  have : ∀ j, j ≤ r.nLL.length → P (q j) := by
    intro j
    induction j with
    | zero => intro _; rw [hq0]; exact h0
    | succ j ih =>
      intro hj
      exact hstep _ _ _ (ih (by omega)) (hq j _ (List.getElem?_eq_getElem (by omega)))
  rw [hr]
  exact this _ le_rfl

lemma argminL_lt : ∀ {l : List ℝ}, l ≠ [] → argminL l < l.length
  | [], h => absurd rfl h
  | x :: xs, _ => by
    rw [argminL]
    split
    · simp
    · rename_i hx
      have : xs ≠ [] := by rintro rfl; simp at hx
      have := argminL_lt this
      simp only [List.length_cons]
      omega

lemma argminL_spec : ∀ {l : List ℝ} (h : argminL l < l.length),
    (∀ y ∈ l, l[argminL l] ≤ y) ∧ ∀ j (hj : j < argminL l), l[argminL l] < l[j]
  | [], h => by simp at h
  | x :: xs, h => by
    by_cases hx : (xs.all fun y => decide (x ≤ y)) = true
    · have h0 : argminL (x :: xs) = 0 := by rw [argminL, if_pos hx]
      simp only [h0, List.getElem_cons_zero]
      refine ⟨fun y hy => ?_, fun j hj => absurd hj (by omega)⟩
      rcases List.mem_cons.1 hy with rfl | hy
      · exact le_rfl
      · simpa using List.all_eq_true.1 hx y hy
    · have h0 : argminL (x :: xs) = argminL xs + 1 := by rw [argminL, if_neg hx]
      have hlt : argminL xs < xs.length := by
        rw [h0] at h
        simpa using h
      obtain ⟨h1, h2⟩ := argminL_spec hlt
      simp only [h0, List.getElem_cons_succ]
      have hxlt : xs[argminL xs] < x := by
        simp only [List.all_eq_true, not_forall, decide_eq_true_eq, not_le] at hx
        obtain ⟨y, hy, hlt'⟩ := hx
        exact lt_of_le_of_lt (h1 y hy) hlt'
      refine ⟨fun y hy => ?_, fun j hj => ?_⟩
      · rcases List.mem_cons.1 hy with rfl | hy
        · exact hxlt.le
        · exact h1 y hy
      · cases j with
        | zero => simpa using hxlt
        | succ j => simpa using h2 j (by omega)

/-- The log-likelihood gain of one update is at least the expected gain. -/
lemma logNorm_gain {K n : ℕ} (lg lg' : Fin K → Fin n → ℝ) (hK : 0 < K) (i : Fin n) :
    ∑ c, resp lg c i * (lg' c i - lg c i) ≤ logNorm lg' i - logNorm lg i := by
  have hj := convexOn_exp.map_sum_le (t := Finset.univ) (w := fun c => resp lg c i)
    (p := fun c => lg' c i - lg c i) (fun c _ => (resp_pos lg c i).le) (resp_sum lg hK i) (fun c _ => Set.mem_univ _)
  simp only [smul_eq_mul] at hj
  have he : ∑ c, resp lg c i * exp (lg' c i - lg c i) = exp (logNorm lg' i - logNorm lg i) := by
    rw [exp_sub, logNorm, logNorm, exp_log (sum_exp_pos lg' hK i), exp_log (sum_exp_pos lg hK i), Finset.sum_div]
    refine Finset.sum_congr rfl fun c _ => ?_
    rw [resp_eq lg hK, exp_sub]
    field_simp
  rw [he] at hj
  exact exp_le_exp.1 hj

/-- Gibbs' inequality for offset weights. -/
lemma offset_gibbs {K : ℕ} {p p' : Fin K → ℝ} {e : ℝ} (he : 0 < e) (hp : ∀ c, 0 ≤ p c) (hp' : ∀ c, 0 ≤ p' c)
    (hs : ∑ c, p c = 1) (hs' : ∑ c, p' c = 1) :
    -(K * e * log ((1 + e) / e)) ≤ ∑ c, p' c * (log (p' c + e) - log (p c + e)) := by
  have hle : ∀ c, p' c ≤ 1 := fun c => by
    rw [← hs']
    exact Finset.single_le_sum (f := p') (fun d _ => hp' d) (Finset.mem_univ c)
  have key : ∀ c, p' c - p c - e * log ((1 + e) / e) ≤ p' c * (log (p' c + e) - log (p c + e)) := by
    intro c
    have h1 : 0 < p' c + e := add_pos_of_nonneg_of_pos (hp' c) he
    have h2 : 0 < p c + e := add_pos_of_nonneg_of_pos (hp c) he
    have hlog : log (p c + e) - log (p' c + e) ≤ (p c + e) / (p' c + e) - 1 := by
      rw [← log_div h2.ne' h1.ne']
      exact log_le_sub_one_of_pos (div_pos h2 h1)
    have hA : p' c - p c ≤ (p' c + e) * (log (p' c + e) - log (p c + e)) := by
      have := mul_le_mul_of_nonneg_left hlog h1.le
      have e1 : (p' c + e) * ((p c + e) / (p' c + e) - 1) = p c - p' c := by
        field_simp
        ring
      rw [e1] at this
      linarith
    have hB : log (p' c + e) - log (p c + e) ≤ log ((1 + e) / e) := by
      rw [← log_div h1.ne' h2.ne']
      refine log_le_log (div_pos h1 h2) ?_
      rw [div_le_div_iff₀ h2 he]
      nlinarith [hle c, hp c, hp' c]
    nlinarith
  calc -(K * e * log ((1 + e) / e)) = ∑ c : Fin K, (p' c - p c - e * log ((1 + e) / e)) := by
        rw [Finset.sum_sub_distrib, Finset.sum_sub_distrib, hs, hs']
        simp
        ring
    _ ≤ _ := Finset.sum_le_sum fun c _ => key c

end Verif
