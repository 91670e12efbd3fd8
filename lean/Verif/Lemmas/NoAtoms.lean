import Verif.Lemmas.Gaps
import Verif.Lemmas.Samples
import Verif.Props.Kuiper
import Verif.Props.RaoSpacing
import Mathlib.Data.Fin.Tuple.Sort

/-!
# The statistics of Kuiper, Watson and Rao have continuous distributions under uniformity
-/

set_option autoImplicit false

namespace Verif

open Verif.Spec Verif.Props Real MeasureTheory

lemma uniform_countable {s : Set ℝ} (hs : s.Countable) : uniformLaw s = 0 := by
  unfold uniformLaw
  rw [Measure.smul_apply, hs.measure_zero, smul_zero]

lemma uniformSample_perm {n : ℕ} (σ : Equiv.Perm (Fin n)) {N : Set (Fin n → ℝ)} (hN : uniformSample n N = 0) :
    uniformSample n {x | x ∘ σ ∈ N} = 0 := by
  have hp := measurePreserving_piCongrLeft (fun _ : Fin n => uniformLaw) σ.symm
  have := hp.measure_preimage (NullMeasurableSet.of_null hN)
  unfold uniformSample at hN ⊢
  rw [hN] at this
  rw [← this]
  congr 1
  ext x
  have e : (MeasurableEquiv.piCongrLeft (fun _ : Fin n => ℝ) σ.symm) x = x ∘ σ := by
    funext i
    have := Equiv.piCongrLeft_apply_apply (P := fun _ : Fin n => ℝ) σ.symm x (σ i)
    rw [Equiv.symm_apply_apply] at this
    exact this
  show x ∘ σ ∈ N ↔ (MeasurableEquiv.piCongrLeft (fun _ : Fin n => ℝ) σ.symm) x ∈ N
  rw [e]

/-- A statistic that does not depend on the order has no atom at `c` if sorted samples with this value lie in a
null set. -/
lemma null_of_sorted {n : ℕ} (P : List ℝ → Prop) (hP : ∀ l l' : List ℝ, l.Perm l' → P l → P l')
    (N : Set (Fin n → ℝ)) (hN : uniformSample n N = 0)
    (h : ∀ y : Fin n → ℝ, Monotone y → P (List.ofFn y) → y ∈ N) : uniformSample n {x | P (List.ofFn x)} = 0 := by
  refine measure_mono_null (t := ⋃ σ : Equiv.Perm (Fin n), {x | x ∘ σ ∈ N}) ?_
    (measure_iUnion_null fun σ => uniformSample_perm σ hN)
  intro x hx
  rw [Set.mem_iUnion]
  exact ⟨Tuple.sort x, h _ (Tuple.monotone_sort x) (hP _ _ (Equiv.Perm.ofFn_comp_perm (Tuple.sort x) x).symm hx)⟩

/-- A set is null if all its slices along one coordinate are countable. -/
lemma null_of_slices {m : ℕ} (i : Fin (m + 1)) {S : Set (Fin (m + 1) → ℝ)} (hS : MeasurableSet S)
    (h : ∀ y : Fin m → ℝ, {t | i.insertNth t y ∈ S}.Countable) : uniformSample (m + 1) S = 0 := by
  have hp := (measurePreserving_piFinSuccAbove (fun _ : Fin (m + 1) => uniformLaw) i).symm
  have h1 := hp.measure_preimage hS.nullMeasurableSet
  unfold uniformSample
  rw [← h1, Measure.prod_apply_symm (hp.measurable hS)]
  refine (lintegral_congr fun y => ?_).trans lintegral_zero
  exact uniform_countable (h y)

lemma null_linear {n : ℕ} (a : Fin n → ℝ) (ha : ∃ i, a i ≠ 0) (d : ℝ) : uniformSample n {x | ∑ i, a i * x i = d} = 0 := by
  obtain ⟨i, hi⟩ := ha
  obtain ⟨m, rfl⟩ : ∃ m', n = m' + 1 := ⟨n - 1, by have := i.pos; omega⟩
  refine null_of_slices i (measurableSet_eq_fun (by fun_prop) measurable_const) fun y => ?_
  refine Set.Countable.mono (s₂ := {(d - ∑ j, a (i.succAbove j) * y j) / a i}) ?_ (Set.countable_singleton _)
  intro t ht
  have : ∑ j, a j * (i.insertNth t y : Fin (m + 1) → ℝ) j = d := ht
  rw [Fin.sum_univ_succAbove _ i] at this
  simp only [Fin.insertNth_apply_same, Fin.insertNth_apply_succAbove] at this
  rw [Set.mem_singleton_iff, eq_div_iff hi]
  linarith

lemma null_diff {n : ℕ} {i j : Fin n} (hij : i ≠ j) (d : ℝ) : uniformSample n {x | x i - x j = d} = 0 := by
  have := null_linear (fun k => (if k = i then 1 else 0) - (if k = j then 1 else 0 : ℝ)) ⟨i, by simp [hij]⟩ d
  simpa [sub_mul, Finset.sum_sub_distrib] using this

lemma countable_quadratic (A B C : ℝ) (hA : A ≠ 0) : {t : ℝ | A * t ^ 2 + B * t + C = 0}.Countable := by
  refine Set.Countable.mono (s₂ := {(sqrt (B ^ 2 - 4 * A * C) - B) / (2 * A), (-sqrt (B ^ 2 - 4 * A * C) - B) / (2 * A)}) ?_
    (Set.countable_insert.2 (Set.countable_singleton _))
  intro t ht
  have ht' : A * t ^ 2 + B * t + C = 0 := ht
  have h1 : (2 * A * t + B) ^ 2 = B ^ 2 - 4 * A * C := by linear_combination 4 * A * ht'
  have h2A : 2 * A ≠ 0 := mul_ne_zero two_ne_zero hA
  rw [Set.mem_insert_iff, Set.mem_singleton_iff, eq_div_iff h2A, eq_div_iff h2A]
  have h3 : |2 * A * t + B| = sqrt (B ^ 2 - 4 * A * C) := by rw [← h1, sqrt_sq_eq_abs]
  rcases abs_choice (2 * A * t + B) with h | h
  · left; linarith
  · right; linarith

lemma null_squares {n : ℕ} (hn : 2 ≤ n) (b : Fin n → ℝ) (s : ℝ) (hs : s ≠ 0) (c : ℝ) :
    uniformSample n {x | ∑ i, ((s * x i - b i) - (∑ j, s * x j) / n) ^ 2 = c} = 0 := by
  obtain ⟨m, rfl⟩ : ∃ m', n = m' + 1 := ⟨n - 1, by omega⟩
  refine null_of_slices 0 (measurableSet_eq_fun (by fun_prop) measurable_const) fun y => ?_
  obtain ⟨N, hN⟩ : ∃ N : ℝ, ((m + 1 : ℕ) : ℝ) = N := ⟨_, rfl⟩
  have hN2 : 2 ≤ N := by rw [← hN]; exact_mod_cast hn
  have hmN : (m : ℝ) = N - 1 := by rw [← hN]; push_cast; ring
  obtain ⟨Y, hY⟩ : ∃ Y, ∑ j, s * y j = Y := ⟨_, rfl⟩
  obtain ⟨D, hD⟩ : ∃ D : Fin m → ℝ, D = fun j => s * y j - b j.succ - Y / N := ⟨_, rfl⟩
  have key : ∀ t : ℝ, ∑ i, ((s * (Fin.insertNth 0 t y : Fin (m + 1) → ℝ) i - b i) -
      (∑ j, s * (Fin.insertNth 0 t y : Fin (m + 1) → ℝ) j) / N) ^ 2
      = (s ^ 2 * (1 - 1 / N)) * t ^ 2 + (2 * (s - s / N) * (- b 0 - Y / N) - 2 * (s / N) * ∑ j, D j) * t
        + ((- b 0 - Y / N) ^ 2 + ∑ j, D j ^ 2) := by
    intro t
    have hsum : ∑ j, s * (Fin.insertNth 0 t y : Fin (m + 1) → ℝ) j = s * t + Y := by
      rw [Fin.sum_univ_succAbove _ 0, ← hY]
      simp only [Fin.insertNth_apply_same, Fin.insertNth_apply_succAbove]
    rw [hsum, Fin.sum_univ_succAbove _ 0]
    simp only [Fin.insertNth_apply_same, Fin.insertNth_apply_succAbove]
    simp only [Fin.zero_succAbove]
    have h1 : ∀ j : Fin m, (s * y j - b j.succ - (s * t + Y) / N) ^ 2
        = D j ^ 2 - 2 * (s / N) * t * D j + (s / N) ^ 2 * t ^ 2 := by
      intro j; rw [hD]; field_simp; ring
    rw [Finset.sum_congr rfl fun j _ => h1 j]
    rw [Finset.sum_add_distrib, Finset.sum_sub_distrib, ← Finset.mul_sum, Finset.sum_const, Finset.card_univ,
      Fintype.card_fin, nsmul_eq_mul, hmN]
    have : N ≠ 0 := by linarith
    field_simp
    ring
  refine Set.Countable.mono ?_ (countable_quadratic (s ^ 2 * (1 - 1 / N))
    (2 * (s - s / N) * (- b 0 - Y / N) - 2 * (s / N) * ∑ j, D j) (((- b 0 - Y / N) ^ 2 + ∑ j, D j ^ 2) - c) ?_)
  · intro t ht
    have ht' : _ = c := ht
    rw [hN, key t] at ht'
    show _ = (0 : ℝ)
    linarith
  · have : 0 < 1 - 1 / N := by
      rw [sub_pos, div_lt_one (by linarith)]; linarith
    positivity

lemma sorted_ofFn {n : ℕ} {y : Fin n → ℝ} (hy : Monotone y) : sortR (List.ofFn y) = List.ofFn y :=
  sortR_eq_self (List.pairwise_ofFn.2 fun _ _ h => hy h.le)

lemma mapIdx_ofFn {n : ℕ} (y : Fin n → ℝ) (f : ℕ → ℝ → ℝ) :
    (List.ofFn y).mapIdx f = List.ofFn fun i => f i (y i) := by
  apply List.ext_getElem
  · simp
  · intro i h1 h2; simp

lemma watson_atoms {n : ℕ} (hn : 2 ≤ n) (c : ℝ) : uniformSample n {x | watsonU2One (List.ofFn x) = c} = 0 := by
  have hp := pi_pos
  refine null_of_sorted (fun l => watsonU2One l = c) ?_ _
    (null_squares hn (fun i => ((i : ℝ) + 1 - 0.5) / n - 0.5) (1 / (2 * π)) (by positivity) (c - 1 / (12 * n))) ?_
  · intro l l' h h1
    unfold watsonU2One at h1 ⊢
    rw [← sortR_eq_of_perm h, ← h.length_eq]
    exact h1
  · intro y hy h
    unfold watsonU2One at h
    simp only [sorted_ofFn hy, List.map_ofFn, mapIdx_ofFn, List.length_ofFn, List.sum_ofFn, Function.comp_apply] at h
    show _ = _
    rw [eq_sub_iff_add_eq, ← h]
    congr 1
    refine Finset.sum_congr rfl fun i _ => ?_
    have : ∀ j, 1 / (2 * π) * y j = y j / (2 * π) := fun j => by ring
    simp only [this]
    ring

lemma kuiper_atoms {n : ℕ} (hn : 2 ≤ n) (c : ℝ) : uniformSample n {x | kuiperV (List.ofFn x) = .ok c} = 0 := by
  have hp := pi_pos
  have hn0 : (0 : ℝ) < n := by positivity
  have hF : 0 < kuiperF n := by
    unfold kuiperF
    have := sqrt_pos.2 hn0
    positivity
  refine null_of_sorted (fun l => kuiperV l = .ok c) ?_
    ((⋃ i : Fin n, ⋃ j : Fin n, {y | i ≠ j ∧ y j - y i = 2 * π * (c / kuiperF n - ((i : ℝ) + 1) / n + j / n)})) ?_ ?_
  · intro l l' h h1
    rw [← kuiperV_perm h]; exact h1
  · refine measure_iUnion_null fun i => measure_iUnion_null fun j => ?_
    by_cases hij : i = j
    · simp [hij]
    · refine measure_mono_null ?_ (null_diff (Ne.symm hij)
        (2 * π * (c / kuiperF n - ((i : ℝ) + 1) / n + j / n)))
      exact fun y hy => hy.2
  · intro y hy h
    unfold kuiperV kuiperPlus kuiperMinus at h
    simp only [sorted_ofFn hy, mapIdx_ofFn, List.length_ofFn] at h
    cases h1 : maxL (List.ofFn fun i : Fin n => ((i : ℝ) + 1) / n - y i / (2 * π)) with
    | none => rw [h1] at h; cases h
    | some a =>
      cases h2 : maxL (List.ofFn fun i : Fin n => y i / (2 * π) - (i : ℝ) / n) with
      | none => rw [h1, h2] at h; cases h
      | some b =>
        rw [h1, h2] at h
        simp only [Except.ok.injEq] at h
        obtain ⟨ha, ha'⟩ := maxL_some h1
        obtain ⟨hb, hb'⟩ := maxL_some h2
        obtain ⟨i, hi⟩ := (List.mem_ofFn' _ _).1 ha
        obtain ⟨j, hj⟩ := (List.mem_ofFn' _ _).1 hb
        have hA : ∀ k : Fin n, ((k : ℝ) + 1) / n - y k / (2 * π) ≤ a := fun k => ha' _ ((List.mem_ofFn' _ _).2 ⟨k, rfl⟩)
        have hB : ∀ k : Fin n, y k / (2 * π) - (k : ℝ) / n ≤ b := fun k => hb' _ ((List.mem_ofFn' _ _).2 ⟨k, rfl⟩)
        have hc : c / kuiperF n = a + b := by rw [← h]; field_simp
        simp only [Set.mem_iUnion]
        -- a pair of different indices that attains both maxima
        have : ∃ i j : Fin n, i ≠ j ∧ ((i : ℝ) + 1) / n - y i / (2 * π) = a ∧ y j / (2 * π) - (j : ℝ) / n = b := by
          by_cases hij : i = j
          · subst hij
            have hall : ∀ k : Fin n, y k / (2 * π) - (k : ℝ) / n = b := by
              intro k
              have e1 := hA k
              have e2 := hB k
              simp only at hi hj
              have e3 : ((k : ℝ) + 1) / n = (k : ℝ) / n + 1 / n := by ring
              have e4 : ((i : ℝ) + 1) / n = (i : ℝ) / n + 1 / n := by ring
              rw [e3] at e1; rw [e4] at hi
              linarith
            obtain ⟨j, hj'⟩ : ∃ j : Fin n, i ≠ j := by
              have : Nontrivial (Fin n) := Fin.nontrivial_iff_two_le.2 hn
              obtain ⟨j, hj⟩ := exists_ne i
              exact ⟨j, hj.symm⟩
            exact ⟨i, j, hj', hi, hall j⟩
          · exact ⟨i, j, hij, hi, hj⟩
        obtain ⟨i, j, hij, hi, hj⟩ := this
        refine ⟨i, j, hij, ?_⟩
        rw [hc, ← hi, ← hj]
        field_simp
        ring

lemma diff_ofFn : ∀ {m : ℕ} (y : Fin (m + 1) → ℝ), diff (List.ofFn y) = List.ofFn fun i : Fin m => y i.succ - y i.castSucc
  | 0, y => by simp [diff]
  | m + 1, y => by
    have ih := diff_ofFn (fun i : Fin (m + 1) => y i.succ)
    rw [List.ofFn_succ, List.ofFn_succ, diff_cons_cons]
    rw [List.ofFn_succ] at ih
    rw [ih, List.ofFn_succ]
    rfl

lemma raoU_sorted {m : ℕ} {y : Fin (m + 1) → ℝ} (hy : Monotone y) :
    raoU (List.ofFn y) = 0.5 * ∑ i : Fin (m + 1),
      |y (i + 1) - y i + (if i = Fin.last m then 2 * π else 0) - 2 * π / (m + 1 : ℕ)| := by
  unfold raoU raoSpacings
  have e1 : (List.ofFn y).getLastD 0 = y (Fin.last m) := by
    rw [List.ofFn_succ_last]; simp
  have e2 : (List.ofFn y).headD 0 = y 0 := by simp [List.ofFn_succ]
  rw [sorted_ofFn hy, e1, e2, diff_ofFn, List.length_ofFn, List.map_append, List.sum_append, List.map_ofFn,
    List.sum_ofFn, Fin.sum_univ_castSucc]
  simp only [Function.comp_apply, List.map_cons, List.map_nil, List.sum_cons, List.sum_nil, add_zero]
  congr 2
  · refine Finset.sum_congr rfl fun i _ => ?_
    rw [Fin.coeSucc_eq_succ, if_neg (Fin.castSucc_lt_last i).ne, add_zero]
  · rw [Fin.last_add_one]
    simp only [if_true]
    congr 1
    ring

lemma rao_atoms {n : ℕ} (hn : 2 ≤ n) (c : ℝ) : uniformSample n {x | raoU (List.ofFn x) = c} = 0 := by
  have hp := pi_pos
  obtain ⟨m, rfl⟩ : ∃ m', n = m' + 1 := ⟨n - 1, by omega⟩
  have h01 : (0 : Fin (m + 1)) ≠ 1 := by
    intro h
    have := congrArg Fin.val h
    rw [Fin.val_zero, Fin.val_one', Nat.mod_eq_of_lt (by omega)] at this
    omega
  obtain ⟨w, hw⟩ : ∃ w : Fin (m + 1) → ℝ, w = fun i => (if i = Fin.last m then 2 * π else 0) - 2 * π / (m + 1 : ℕ) :=
    ⟨_, rfl⟩
  have hw0 : ∑ i, w i = 0 := by
    rw [hw, Finset.sum_sub_distrib, Finset.sum_const, Finset.card_univ, Fintype.card_fin]
    simp
    field_simp
    ring
  have hcyc : ∀ y : Fin (m + 1) → ℝ, ∑ i, (y (i + 1) - y i + w i) = 0 := by
    intro y
    rw [Finset.sum_add_distrib, Finset.sum_sub_distrib, hw0]
    have := Equiv.sum_comp (Equiv.addRight (1 : Fin (m + 1))) y
    simp only [Equiv.coe_addRight] at this
    rw [this]
    ring
  -- the sign patterns
  let coef : (Fin (m + 1) → Bool) → Fin (m + 1) → ℝ := fun e i => (if e (i - 1) then 1 else -1) - (if e i then 1 else -1)
  let rhs : (Fin (m + 1) → Bool) → ℝ := fun e => 2 * c - ∑ i, (if e i then 1 else -1) * w i
  refine null_of_sorted (fun l => raoU l = c) ?_
    ((⋃ e : Fin (m + 1) → Bool, {y | (∃ i, coef e i ≠ 0) ∧ ∑ i, coef e i * y i = rhs e}) ∪
      {y | y (0 + 1) - y 0 = - w 0}) ?_ ?_
  · intro l l' h h1
    rw [← raoU_perm h]; exact h1
  · refine measure_union_null (measure_iUnion_null fun e => ?_) ?_
    · by_cases h : ∃ i, coef e i ≠ 0
      · exact measure_mono_null (fun y hy => hy.2) (null_linear _ h (rhs e))
      · simp [h]
    · rw [zero_add]
      exact null_diff h01.symm _
  · intro y hy h
    have h : raoU (List.ofFn y) = c := h
    rw [raoU_sorted hy] at h
    obtain ⟨g, hg⟩ : ∃ g : Fin (m + 1) → ℝ, g = fun i => y (i + 1) - y i + w i := ⟨_, rfl⟩
    have hgs : ∑ i, g i = 0 := by rw [hg]; exact hcyc y
    have h' : ∑ i, |g i| = 2 * c := by
      rw [← h, hg, hw]
      have : ∀ i : Fin (m + 1), |y (i + 1) - y i + ((if i = Fin.last m then 2 * π else 0) - 2 * π / (m + 1 : ℕ))|
          = |y (i + 1) - y i + (if i = Fin.last m then 2 * π else 0) - 2 * π / (m + 1 : ℕ)| := fun i => by
        rw [add_sub_assoc]
      simp only [this]
      ring
    obtain ⟨e, he⟩ : ∃ e : Fin (m + 1) → Bool, e = fun i => decide (0 ≤ g i) := ⟨_, rfl⟩
    have habs : ∀ i, |g i| = (if e i then 1 else -1) * g i := by
      intro i
      rw [he]
      by_cases h0 : 0 ≤ g i
      · simp [h0, abs_of_nonneg h0]
      · simp [h0, abs_of_neg (not_le.1 h0)]
    by_cases hco : ∃ i, coef e i ≠ 0
    · refine Or.inl (Set.mem_iUnion.2 ⟨e, hco, ?_⟩)
      have hs : ∑ i, (if e i then (1 : ℝ) else -1) * y (i + 1) = ∑ i, (if e (i - 1) then (1 : ℝ) else -1) * y i := by
        rw [← Equiv.sum_comp (Equiv.addRight (1 : Fin (m + 1))) fun i => (if e (i - 1) then (1 : ℝ) else -1) * y i]
        refine Finset.sum_congr rfl fun i _ => ?_
        simp only [Equiv.coe_addRight, add_sub_cancel_right]
      have hx : ∑ i, |g i| = ∑ i, coef e i * y i + ∑ i, (if e i then (1 : ℝ) else -1) * w i := by
        rw [Finset.sum_congr rfl fun i _ => habs i]
        simp only [hg, coef, sub_mul, mul_add, mul_sub, Finset.sum_add_distrib, Finset.sum_sub_distrib, hs]
      simp only [rhs]
      linarith
    · refine Or.inr ?_
      push Not at hco
      have hconst : ∀ k : ℕ, e (Fin.ofNat (m + 1) k) = e 0 := by
        intro k
        induction k with
        | zero => rfl
        | succ k ih =>
          have h1 := hco (Fin.ofNat (m + 1) (k + 1))
          have h2 : Fin.ofNat (m + 1) (k + 1) - 1 = Fin.ofNat (m + 1) k := by
            rw [sub_eq_iff_eq_add]
            ext
            simp [Fin.ofNat, Fin.val_add]
          simp only [coef, h2, ih] at h1
          revert h1
          cases e 0 <;> cases e (Fin.ofNat (m + 1) (k + 1)) <;> norm_num
      have hall : ∀ i, e i = e 0 := by
        intro i
        have := hconst i
        simpa using this
      have hz : ∀ i, g i = 0 := by
        have hsum : ∑ i, |g i| = 0 := by
          simp only [habs, hall]
          rw [← Finset.mul_sum, hgs, mul_zero]
        intro i
        have := (Finset.sum_eq_zero_iff_of_nonneg (fun i _ => abs_nonneg (g i))).1 hsum i (Finset.mem_univ i)
        exact abs_eq_zero.1 this
      have := hz 0
      rw [hg] at this
      show y (0 + 1) - y 0 = - w 0
      simp only at this
      linarith

end Verif
