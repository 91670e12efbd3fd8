import Verif.Lemmas.NoAtoms
import Verif.Props.WatsonOne
import Mathlib.Analysis.Complex.ExponentialBounds

/-!
# C140: p values from truncated series
-/

set_option autoImplicit false

namespace Verif.Props

open Verif Verif.Spec Real

private lemma series_pairs (c : ℝ) :
    ((List.range 50).map fun j : ℕ => (-1 : ℝ) ^ j * exp (-2 * ((j : ℝ) + 1) ^ 2 * c)).sum
      = ∑ i ∈ Finset.range 25, (exp (-2 * (2 * (i : ℝ) + 1) ^ 2 * c) - exp (-2 * (2 * (i : ℝ) + 2) ^ 2 * c)) := by
  have h1 : ∀ (f : ℕ → ℝ) (n : ℕ), ((List.range n).map f).sum = ∑ j ∈ Finset.range n, f j := fun f n => by
    rw [Finset.sum_eq_multiset_sum]; rfl
  have h2 : ∀ (f : ℕ → ℝ) (n : ℕ), ∑ j ∈ Finset.range (2 * n), f j = ∑ i ∈ Finset.range n, (f (2 * i) + f (2 * i + 1)) := by
    intro f n
    induction n with
    | zero => simp
    | succ n ih => rw [show 2 * (n + 1) = 2 * n + 1 + 1 by ring, Finset.sum_range_succ, Finset.sum_range_succ, ih, Finset.sum_range_succ]; ring
  rw [h1, show 50 = 2 * 25 by norm_num, h2]
  refine Finset.sum_congr rfl fun i _ => ?_
  have e1 : (-1 : ℝ) ^ (2 * i) = 1 := by rw [pow_mul]; norm_num
  have e2 : (-1 : ℝ) ^ (2 * i + 1) = -1 := by rw [pow_succ, e1]; norm_num
  rw [e1, e2]
  push_cast
  ring_nf

/-- The p value that Watson's test computes from the series is not negative and at most `5100 π² U²`: it falls to 0 not
only for large but also for small values of the statistic. -/
private lemma watson_series (U : ℝ) (hU : 0 ≤ U) : 0 ≤ watsonSeries U ∧ watsonSeries U ≤ 5100 * π ^ 2 * U := by
  have hc : 0 ≤ π ^ 2 * U := by positivity
  have e : watsonSeries U = 2 * ∑ i ∈ Finset.range 25,
      (exp (-2 * (2 * (i : ℝ) + 1) ^ 2 * (π ^ 2 * U)) - exp (-2 * (2 * (i : ℝ) + 2) ^ 2 * (π ^ 2 * U))) := by
    rw [← series_pairs]
    unfold watsonSeries
    simp only [mul_assoc]
  rw [e, show 5100 * π ^ 2 * U = 5100 * (π ^ 2 * U) by ring]
  clear e
  generalize π ^ 2 * U = c at *
  constructor
  · refine mul_nonneg (by norm_num) (Finset.sum_nonneg fun i _ => ?_)
    rw [sub_nonneg, exp_le_exp]
    have : (0 : ℝ) ≤ i := by positivity
    nlinarith [mul_nonneg hc this]
  · have hb : ∀ i ∈ Finset.range 25,
        (exp (-2 * (2 * (i : ℝ) + 1) ^ 2 * c) - exp (-2 * (2 * (i : ℝ) + 2) ^ 2 * c)) ≤ (8 * (i : ℝ) + 6) * c := by
      intro i _
      have hi : (0 : ℝ) ≤ i := by positivity
      have hd : exp (-2 * (2 * (i : ℝ) + 2) ^ 2 * c)
          = exp (-2 * (2 * (i : ℝ) + 1) ^ 2 * c) * exp (-((8 * (i : ℝ) + 6) * c)) := by
        rw [← exp_add]; congr 1; ring
      have h1 : exp (-2 * (2 * (i : ℝ) + 1) ^ 2 * c) ≤ 1 := exp_le_one_iff.2 (by
        have : 0 ≤ (2 * (i : ℝ) + 1) ^ 2 * c := by positivity
        linarith)
      have h2 := add_one_le_exp (-((8 * (i : ℝ) + 6) * c))
      have h3 : 0 < exp (-2 * (2 * (i : ℝ) + 1) ^ 2 * c) := exp_pos _
      have h4 : 0 ≤ (8 * (i : ℝ) + 6) * c := by positivity
      rw [hd]
      nlinarith
    have := Finset.sum_le_sum hb
    have hs : ∑ i ∈ Finset.range 25, (8 * (i : ℝ) + 6) * c = 2550 * c := by
      simp only [Finset.sum_range_succ, Finset.sum_range_zero]
      push_cast
      ring
    rw [hs] at this
    linarith

/-- `n` evenly spaced directions. -/
noncomputable def evenSample (n : ℕ) : List ℝ := List.ofFn fun i : Fin n => 2 * π * (i : ℕ) / n

private lemma even_sorted (n : ℕ) : sortR (evenSample n) = evenSample n :=
  sorted_ofFn fun i j h => by
    have : ((i : ℕ) : ℝ) ≤ (j : ℕ) := by exact_mod_cast h
    gcongr

private lemma even_u2 {n : ℕ} (hn : 0 < n) : watsonU2One (evenSample n) = 1 / (12 * n) := by
  have hn' : (0 : ℝ) < n := by exact_mod_cast hn
  have hp := pi_pos
  have hu : (evenSample n).map (fun v => v / (2 * π)) = List.ofFn fun i : Fin n => ((i : ℕ) : ℝ) / n := by
    unfold evenSample
    rw [List.map_ofFn]
    congr 1
    funext i
    simp only [Function.comp_apply]
    field_simp
  have hs : (List.ofFn fun i : Fin n => ((i : ℕ) : ℝ) / n).sum / n - 0.5 = -(0.5 / n) := by
    rw [List.sum_ofFn, ← Finset.sum_div, Fin.sum_univ_eq_sum_range (fun i : ℕ => (i : ℝ))]
    have h := Finset.sum_range_id_mul_two n
    have h' : (∑ i ∈ Finset.range n, (i : ℝ)) * 2 = n * (n - 1) := by
      have : ((∑ i ∈ Finset.range n, i : ℕ) : ℝ) * 2 = (n : ℝ) * ((n - 1 : ℕ) : ℝ) := by exact_mod_cast h
      rw [Nat.cast_sub (by omega)] at this
      push_cast at this
      exact this
    have h'' : (∑ i ∈ Finset.range n, (i : ℝ)) = n * (n - 1) / 2 := by linarith
    rw [h'']
    field_simp
    ring
  unfold watsonU2One
  have hl : (evenSample n).length = n := by simp [evenSample]
  simp only [even_sorted, hu, hl, hs]
  rw [mapIdx_ofFn, List.sum_ofFn]
  have : ∀ i : Fin n, (((i : ℕ) : ℝ) / n - (((i : ℕ) : ℝ) + 1 - 0.5) / n - -(0.5 / n)) ^ 2 = 0 := fun i => by
    have : (((i : ℕ) : ℝ) / n - (((i : ℕ) : ℝ) + 1 - 0.5) / n - -(0.5 / n)) = 0 := by field_simp; ring
    rw [this]; norm_num
  rw [Finset.sum_congr rfl fun i _ => this i, Finset.sum_const_zero, zero_add]

/-- C140. The p value from the series of Watson's test (`n_simulation = 1`) is not negative; but of `n` evenly spaced
directions, the sample that agrees best with uniformity, it is at most `4200/n`. -/
theorem C140_watson (draws : List (List ℝ)) :
    (∀ alpha : List ℝ, alpha ≠ [] → ∃ U pval, watsonTest alpha 1 draws = .ok (U, pval) ∧ 0 ≤ pval ∧ pval ≤ 5100 * π ^ 2 * U) ∧
    ∀ n : ℕ, 0 < n → ∃ U pval, watsonTest (evenSample n) 1 draws = .ok (U, pval) ∧
      (∀ alpha U' pval', alpha.length = n → watsonTest alpha 1 draws = .ok (U', pval') → U ≤ U') ∧ pval ≤ 4200 / n := by
  have hpos : ∀ alpha : List ℝ, 1 / (12 * (alpha.length : ℝ)) ≤ watsonU2One alpha := fun alpha => by
    unfold watsonU2One
    have : 0 ≤ ((((sortR alpha).map fun v => v / (2 * π)).mapIdx fun i v => ((v - ((i : ℝ) + 1 - 0.5) / alpha.length) -
        (((sortR alpha).map fun v => v / (2 * π)).sum / alpha.length - 0.5)) ^ 2).sum) := by
      refine List.sum_nonneg fun x hx => ?_
      obtain ⟨i, _, rfl⟩ := List.mem_mapIdx.1 hx
      positivity
    simp only
    linarith
  have hrun : ∀ alpha : List ℝ, alpha ≠ [] → watsonTest alpha 1 draws = .ok (watsonU2One alpha, watsonSeries (watsonU2One alpha)) :=
    fun alpha h => by
      unfold watsonTest
      rw [if_neg (by norm_num), if_neg (by simpa using h)]
      simp
  refine ⟨fun alpha h => ⟨_, _, hrun alpha h, watson_series _ (le_trans (by positivity) (hpos alpha))⟩, fun n hn => ?_⟩
  have hn' : (0 : ℝ) < n := by exact_mod_cast hn
  have hl : (evenSample n).length = n := by simp [evenSample]
  have hne : evenSample n ≠ [] := by
    intro h; rw [h] at hl; simp at hl; omega
  refine ⟨_, _, hrun _ hne, fun alpha U' p' hal h => ?_, ?_⟩
  · have hne' : alpha ≠ [] := by rintro rfl; simp at hal; omega
    rw [hrun alpha hne', Except.ok.injEq, Prod.mk.injEq] at h
    rw [← h.1, even_u2 hn, ← hal]
    exact hpos alpha
  · refine (watson_series _ (le_trans (by positivity) (hpos _))).2.trans ?_
    rw [even_u2 hn]
    have hpi := pi_lt_d4
    have hp := pi_pos
    rw [le_div_iff₀ hn']
    have : 5100 * π ^ 2 * (1 / (12 * n)) * n = 425 * π ^ 2 := by field_simp; ring
    rw [this]
    nlinarith

/-- C140. The p value from the series of Kuiper's test (`n_simulation = 1`) need not be a probability: of `n` evenly spaced
directions it is below `-50` for every `n` from 100 000 on. -/
theorem C140_kuiper (draws : List (List ℝ)) (n : ℕ) (hn : 100000 ≤ n) :
    ∃ V pval, kuiperTest (evenSample n) 1 draws = .ok (V, pval) ∧ pval ≤ -50 := by
  have hn1 : (100000 : ℝ) ≤ n := by exact_mod_cast hn
  have hn' : (0 : ℝ) < n := by linarith
  have hp := pi_pos
  have hl : (evenSample n).length = n := by simp [evenSample]
  have hplus : kuiperPlus (evenSample n) = List.replicate n (1 / (n : ℝ)) := by
    unfold kuiperPlus
    rw [hl]
    unfold evenSample
    rw [mapIdx_ofFn, ← List.ofFn_const]
    congr 1
    funext i
    field_simp
    ring
  have hminus : kuiperMinus (evenSample n) = List.replicate n 0 := by
    unfold kuiperMinus
    rw [hl]
    unfold evenSample
    rw [mapIdx_ofFn, ← List.ofFn_const]
    congr 1
    funext i
    field_simp
    ring
  have hmax : ∀ a : ℝ, maxL (List.replicate n a) = some a := fun a => by
    rw [maxL_eq_some_iff]
    refine ⟨List.mem_replicate.2 ⟨by omega, rfl⟩, fun x hx => (List.mem_replicate.1 hx).2.le⟩
  obtain ⟨f, hf⟩ : ∃ f, f = kuiperF n := ⟨_, rfl⟩
  have hV : kuiperV (evenSample n) = .ok (f * (1 / n)) := by
    unfold kuiperV
    simp only [even_sorted, hplus, hminus, hmax, hl, add_zero, hf]
  have hrun : kuiperTest (evenSample n) 1 draws = .ok (f * (1 / n), kuiperSeries (f * (1 / n)) f) := by
    unfold kuiperTest
    rw [if_neg (by norm_num), if_neg (by rw [hl]; omega), hV, hl, ← hf]
    simp [Except.bind]
  refine ⟨_, _, hrun, ?_⟩
  have hs0 : 0 < sqrt n := sqrt_pos.2 hn'
  have hs : sqrt n ^ 2 = n := sq_sqrt hn'.le
  have hf0 : 0 < f := by rw [hf]; unfold kuiperF; positivity
  have hf2 : f ^ 2 ≤ 2 * n := by
    have hs1 : 1 ≤ sqrt n := by rw [one_le_sqrt]; linarith
    have h1 : 0.24 / sqrt n ≤ 0.24 := by rw [div_le_iff₀ hs0]; linarith
    have h2 : f ≤ sqrt n + 0.395 := by rw [hf]; unfold kuiperF; linarith
    have h3 : f ≤ 1.395 * sqrt n := by linarith
    have h4 := pow_le_pow_left₀ hf0.le h3 2
    rw [mul_pow, hs] at h4
    linarith
  unfold kuiperSeries
  have hterm : ∀ j ∈ List.range 49, (fun j : ℕ =>
      let m : ℝ := ((j : ℝ) + 1) ^ 2
      let a1 := 4 * m * (f * (1 / n)) ^ 2
      let a2 := exp (-2 * m * (f * (1 / n)) ^ 2)
      2 * (a1 - 1) * a2 - 8 * (f * (1 / n)) / (3 * f) * m * (a1 - 3) * a2) j ≤ -1.1 := by
    intro j hj
    have hj1 : (j : ℝ) + 1 ≤ 49 := by
      have := List.mem_range.1 hj
      have : j + 1 ≤ 49 := by omega
      exact_mod_cast this
    have hj0 : (0 : ℝ) ≤ j := by positivity
    obtain ⟨m, hm⟩ : ∃ m, m = ((j : ℝ) + 1) ^ 2 := ⟨_, rfl⟩
    have hm0 : 0 ≤ m := by rw [hm]; positivity
    have hm1 : m ≤ 2401 := by rw [hm]; nlinarith
    obtain ⟨x, hx⟩ : ∃ x, x = m * (f * (1 / n)) ^ 2 := ⟨_, rfl⟩
    have hx0 : 0 ≤ x := by rw [hx]; positivity
    have hx1 : x ≤ 0.05 := by
      have h1 : (f * (1 / n)) ^ 2 ≤ 2 / n := by
        rw [mul_pow]
        calc f ^ 2 * (1 / (n : ℝ)) ^ 2 ≤ 2 * n * (1 / (n : ℝ)) ^ 2 := mul_le_mul_of_nonneg_right hf2 (by positivity)
          _ = 2 / n := by field_simp
      have h2 : 2 / (n : ℝ) ≤ 2 / 100000 := by gcongr
      have h3 : (f * (1 / n)) ^ 2 ≤ 2 / 100000 := h1.trans h2
      rw [hx]
      calc m * (f * (1 / n)) ^ 2 ≤ 2401 * (2 / 100000) := mul_le_mul hm1 h3 (by positivity) (by norm_num)
        _ ≤ 0.05 := by norm_num
    have hb : 8 * (f * (1 / n)) / (3 * f) * m = 8 / 3 * (m / n) := by field_simp
    have hmn : m / n ≤ 0.02402 := by
      rw [div_le_iff₀ hn']; linarith
    have hmn0 : 0 ≤ m / n := by positivity
    have he1 : exp (-2 * x) ≤ 1 := exp_le_one_iff.2 (by linarith)
    have he0 : 0.9 ≤ exp (-2 * x) := by have := add_one_le_exp (-2 * x); linarith
    simp only [← hm]
    have e1 : 4 * m * (f * (1 / n)) ^ 2 = 4 * x := by rw [hx]; ring
    have e2 : -2 * m * (f * (1 / n)) ^ 2 = -2 * x := by rw [hx]; ring
    rw [e1, e2, hb]
    generalize exp (-2 * x) = E at *
    generalize m / (n : ℝ) = y at *
    have k1 : 2 * (4 * x - 1) * E ≤ -1.44 := by nlinarith
    have k2 : 8 / 3 * y * (3 - 4 * x) * E ≤ 0.2 := by
      have a1 : y * (3 - 4 * x) ≤ 0.02402 * 3 := mul_le_mul hmn (by linarith) (by linarith) (by norm_num)
      have a0 : 0 ≤ y * (3 - 4 * x) := mul_nonneg hmn0 (by linarith)
      have a2 : y * (3 - 4 * x) * E ≤ 0.02402 * 3 * 1 := mul_le_mul a1 he1 (by linarith) (by norm_num)
      linarith
    linarith
  have hsum : ∀ (g : ℕ → ℝ) (l : List ℕ), (∀ j ∈ l, g j ≤ -1.1) → (l.map g).sum ≤ l.length * (-1.1) := fun g l => by
    induction l with
    | nil => simp
    | cons a l ih =>
      intro h
      have h1 := ih fun j hj => h j (List.mem_cons_of_mem _ hj)
      have h2 := h a List.mem_cons_self
      rw [List.map_cons, List.sum_cons, List.length_cons]
      push_cast
      linarith
  refine (hsum _ _ hterm).trans ?_
  rw [List.length_range]
  norm_num

/-- Non-vacuity: 100 000 evenly spaced directions; Watson's p value is below 5 per cent. -/
example (draws : List (List ℝ)) : ∃ U pval, watsonTest (evenSample 100000) 1 draws = .ok (U, pval) ∧ pval < 0.05 := by
  obtain ⟨U, p, h, -, hp⟩ := (C140_watson draws).2 100000 (by norm_num)
  exact ⟨U, p, h, hp.trans_lt (by norm_num)⟩

end Verif.Props
