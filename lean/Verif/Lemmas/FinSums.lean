import Verif.Model.Correlation
import Mathlib.Algebra.BigOperators.Fin
import Mathlib.Data.List.OfFn
import Mathlib.Data.Fin.SuccPred

/-! Helper lemmas: list computations of the model as sums over `Fin n`. -/

set_option autoImplicit false

namespace Verif

open Real

lemma zipWith_ofFn {α β γ : Type} (f : α → β → γ) : ∀ {n : ℕ} (a : Fin n → α) (b : Fin n → β),
    List.zipWith f (List.ofFn a) (List.ofFn b) = List.ofFn fun i => f (a i) (b i)
  | 0, _, _ => by simp
  | n + 1, a, b => by
    rw [List.ofFn_succ, List.ofFn_succ, List.ofFn_succ, List.zipWith_cons_cons, zipWith_ofFn]

lemma sum_map_ofFn {n : ℕ} (a : Fin n → ℝ) (f : ℝ → ℝ) : ((List.ofFn a).map f).sum = ∑ i, f (a i) := by
  rw [List.map_ofFn, List.sum_ofFn]; rfl

lemma eraseIdx_ofFn {α : Type} : ∀ {n : ℕ} (a : Fin (n + 1) → α) (i : Fin (n + 1)),
    (List.ofFn a).eraseIdx i = List.ofFn fun j => a (i.succAbove j)
  | 0, a, i => by
    rw [Fin.fin_one_eq_zero i]; simp
  | n + 1, a, i => by
    refine Fin.cases ?_ (fun i => ?_) i
    · rw [List.ofFn_succ]; simp
    · rw [List.ofFn_succ, Fin.val_succ, List.eraseIdx_cons_succ, eraseIdx_ofFn (fun j => a j.succ) i,
        List.ofFn_succ]
      simp

lemma length_pairDiffs : ∀ {a b : List ℝ}, a.length = b.length → (pairDiffs a).length = (pairDiffs b).length
  | [], [], _ => rfl
  | x :: a, y :: b, h => by
    simp only [List.length_cons, Nat.add_right_cancel_iff] at h
    simp [pairDiffs, length_pairDiffs h, h]

lemma pairDiffs_sum : ∀ {n : ℕ} (a b : Fin n → ℝ),
    (List.zipWith (fun x y => x * y) ((pairDiffs (List.ofFn a)).map sin) ((pairDiffs (List.ofFn b)).map sin)).sum
      = (∑ i, ∑ j, sin (a i - a j) * sin (b i - b j)) / 2
  | 0, a, b => by simp [pairDiffs]
  | n + 1, a, b => by
    rw [List.ofFn_succ, List.ofFn_succ (f := b), pairDiffs, pairDiffs, List.map_append, List.map_append,
      List.zipWith_append (by simp), List.sum_append, pairDiffs_sum]
    simp only [List.map_ofFn, zipWith_ofFn, List.sum_ofFn, Fin.sum_univ_succ, sub_self, sin_zero, mul_zero,
      zero_add, Function.comp_def, Finset.sum_add_distrib]
    have : ∀ i : Fin n, sin (a i.succ - a 0) * sin (b i.succ - b 0) = sin (a 0 - a i.succ) * sin (b 0 - b i.succ) := by
      intro i
      rw [← neg_sub (a 0), ← neg_sub (b 0), sin_neg, sin_neg, neg_mul_neg]
    simp only [this]
    ring

end Verif
