import Mathlib.Analysis.Complex.Norm
import Mathlib.GroupTheory.Perm.Basic
import Mathlib.Data.Fintype.Perm
import Mathlib.Algebra.BigOperators.Field
import Mathlib.Data.Fintype.BigOperators
import Mathlib.Algebra.Star.BigOperators
import Mathlib.Tactic.LinearCombination

/-!
# Averages over permutations and over assignments to classes
-/

set_option autoImplicit false

namespace Verif

open Finset

/-- Products of the values at two different places, summed over all permutations. -/
private lemma perm_pair {N : ℕ} (w : Fin N → ℂ) (h1 : ∀ a, ‖w a‖ = 1) (h0 : ∑ a, w a = 0) (i j : Fin N) (hij : i ≠ j) :
    ((N : ℂ) - 1) * ∑ σ : Equiv.Perm (Fin N), w (σ i) * star (w (σ j)) = -(N.factorial : ℂ) := by
  have hsame : ∀ k, k ≠ i → ∑ σ : Equiv.Perm (Fin N), w (σ i) * star (w (σ k))
      = ∑ σ : Equiv.Perm (Fin N), w (σ i) * star (w (σ j)) := fun k hk => by
    refine Fintype.sum_equiv (Equiv.mulRight (Equiv.swap j k)) _ _ fun σ => ?_
    simp only [Equiv.coe_mulRight, Equiv.Perm.coe_mul, Function.comp_apply, Equiv.swap_apply_left,
      Equiv.swap_apply_of_ne_of_ne hij hk.symm]
  have hself : ∑ σ : Equiv.Perm (Fin N), w (σ i) * star (w (σ i)) = (N.factorial : ℂ) := by
    have : ∀ σ : Equiv.Perm (Fin N), w (σ i) * star (w (σ i)) = 1 := fun σ => by
      rw [Complex.star_def, Complex.mul_conj, Complex.normSq_eq_norm_sq, h1]; norm_num
    simp only [this]
    rw [sum_const, card_univ, Fintype.card_perm, Fintype.card_fin]
    simp
  have htot : ∑ k, ∑ σ : Equiv.Perm (Fin N), w (σ i) * star (w (σ k)) = 0 := by
    rw [sum_comm]
    refine sum_eq_zero fun σ _ => ?_
    rw [← mul_sum, ← star_sum, Equiv.sum_comp σ w, h0, star_zero, mul_zero]
  rw [← sum_erase_add _ _ (mem_univ i), hself, sum_congr rfl fun k hk => hsame k (ne_of_mem_erase hk), sum_const,
    card_erase_of_mem (mem_univ i), card_univ, Fintype.card_fin, nsmul_eq_mul] at htot
  have hN : 1 ≤ N := by have := i.pos; omega
  push_cast [Nat.cast_sub hN] at htot
  linear_combination htot

/-- The squared length of the sum of some of `N` unit vectors with sum 0, averaged over all arrangements. -/
lemma perm_mean_sq {N : ℕ} (w : Fin N → ℂ) (h1 : ∀ a, ‖w a‖ = 1) (h0 : ∑ a, w a = 0) (hN : 2 ≤ N) (S : Finset (Fin N)) :
    ∑ σ : Equiv.Perm (Fin N), ‖∑ i ∈ S, w (σ i)‖ ^ 2
      = N.factorial * ((S.card : ℝ) * (N - S.card) / (N - 1)) := by
  have hN1 : (N : ℂ) - 1 ≠ 0 := by
    have : ((N - 1 : ℕ) : ℂ) ≠ 0 := by exact_mod_cast (by omega : N - 1 ≠ 0)
    rwa [Nat.cast_sub (by omega), Nat.cast_one] at this
  have hpair : ∀ i j, ∑ σ : Equiv.Perm (Fin N), w (σ i) * star (w (σ j))
      = if i = j then (N.factorial : ℂ) else -(N.factorial : ℂ) / (N - 1) := fun i j => by
    split_ifs with h
    · subst h
      have : ∀ σ : Equiv.Perm (Fin N), w (σ i) * star (w (σ i)) = 1 := fun σ => by
        rw [Complex.star_def, Complex.mul_conj, Complex.normSq_eq_norm_sq, h1]; norm_num
      simp only [this]
      rw [sum_const, card_univ, Fintype.card_perm, Fintype.card_fin]
      simp
    · rw [eq_div_iff hN1, mul_comm]
      exact perm_pair w h1 h0 i j h
  have key : ((∑ σ : Equiv.Perm (Fin N), ‖∑ i ∈ S, w (σ i)‖ ^ 2 : ℝ) : ℂ)
      = ∑ i ∈ S, ∑ j ∈ S, ∑ σ : Equiv.Perm (Fin N), w (σ i) * star (w (σ j)) := by
    rw [show ((∑ σ : Equiv.Perm (Fin N), ‖∑ i ∈ S, w (σ i)‖ ^ 2 : ℝ) : ℂ)
      = ∑ σ : Equiv.Perm (Fin N), ((‖∑ i ∈ S, w (σ i)‖ ^ 2 : ℝ) : ℂ) from map_sum Complex.ofRealHom _ _]
    have : ∀ σ : Equiv.Perm (Fin N), ((‖∑ i ∈ S, w (σ i)‖ ^ 2 : ℝ) : ℂ) = ∑ i ∈ S, ∑ j ∈ S, w (σ i) * star (w (σ j)) :=
      fun σ => by
        rw [← sum_mul_sum, ← star_sum, Complex.star_def, Complex.mul_conj, Complex.normSq_eq_norm_sq]
    rw [sum_congr rfl fun σ _ => this σ, sum_comm]
    exact sum_congr rfl fun i _ => sum_comm
  have hval : ∑ i ∈ S, ∑ j ∈ S, ∑ σ : Equiv.Perm (Fin N), w (σ i) * star (w (σ j))
      = ((N.factorial * ((S.card : ℝ) * (N - S.card) / (N - 1)) : ℝ) : ℂ) := by
    simp only [hpair]
    have : ∀ i ∈ S, (∑ j ∈ S, if i = j then (N.factorial : ℂ) else -(N.factorial : ℂ) / (N - 1))
        = N.factorial + ((S.card : ℂ) - 1) * (-(N.factorial : ℂ) / (N - 1)) := fun i hi => by
      rw [← sum_erase_add _ _ hi, if_pos rfl, sum_congr rfl fun j hj => if_neg (ne_of_mem_erase hj).symm, sum_const,
        card_erase_of_mem hi, nsmul_eq_mul, Nat.cast_sub (card_pos.2 ⟨i, hi⟩)]
      push_cast; ring
    rw [sum_congr rfl this, sum_const, nsmul_eq_mul]
    push_cast
    field_simp
    ring
  exact_mod_cast key.trans hval

/-- Pairs of observations in the same of `k` classes, counted over all assignments. -/
lemma assign_pairs (N k : ℕ) (i j : Fin N) :
    ((univ.filter fun f : Fin N → Fin k => f i = f j).card : ℝ) * k = if i = j then (k : ℝ) ^ N * k else (k : ℝ) ^ N := by
  split_ifs with h
  · subst h
    simp
  · have hk : (univ.filter fun f : Fin N → Fin k => f i = f j).card * k = k ^ N := by
      have hcard' : ((univ.filter fun f : Fin N → Fin k => f i = f j) ×ˢ (univ : Finset (Fin k))).card
          = (univ : Finset (Fin N → Fin k)).card := by
        refine card_bij (fun p _ => Function.update p.1 i p.2) (fun _ _ => mem_univ _) ?_ ?_
        · rintro ⟨f, a⟩ hf ⟨g, b⟩ hg he
          simp only [mem_product, mem_filter, mem_univ, true_and, and_true] at hf hg
          have hab : a = b := by simpa using congrFun he i
          have hfg : f = g := funext fun l => by
            by_cases hl : l = i
            · subst hl
              have := congrFun he j
              simp only [Function.update_of_ne (Ne.symm h)] at this
              rw [hf, hg, this]
            · simpa [Function.update_of_ne hl] using congrFun he l
          rw [hab, hfg]
        · intro f _
          refine ⟨(Function.update f i (f j), f i), ?_, ?_⟩
          · simp [Function.update_of_ne (Ne.symm h)]
          · simp
      rw [card_product, card_univ, card_univ, Fintype.card_fin, Fintype.card_fun, Fintype.card_fin, Fintype.card_fin] at hcard'
      exact hcard'
    exact_mod_cast hk

end Verif
