import Mathlib.Algebra.BigOperators.Fin
import Mathlib.Data.Finset.Powerset
import Mathlib.Data.List.FinRange
import Mathlib.Tactic.Linarith
import Mathlib.Tactic.FieldSimp
import Verif.Props.WatsonU2

/-!
# C138: mean of Watson's two-sample statistic over all ways of splitting the pooled data
-/

set_option autoImplicit false

namespace Verif.Props

open Verif Verif.Spec Real Finset

/-! ## Specification -/

/-- The values `z i` with `i ∈ S`, listed in the order of the indices. -/
def pick {N : ℕ} (z : Fin N → ℝ) (S : Finset (Fin N)) : List ℝ :=
  ((List.finRange N).filter fun i => decide (i ∈ S)).map z

/-! ## Helpers -/

private lemma pick_sum {N : ℕ} (z : Fin N → ℝ) (S : Finset (Fin N)) (f : ℝ → ℝ) :
    ((pick z S).map f).sum = ∑ i ∈ S, f (z i) := by
  unfold pick
  rw [List.map_map, ← List.sum_toFinset _ ((List.nodup_finRange N).filter _)]
  refine sum_congr ?_ fun _ _ => rfl
  ext i; simp

private lemma pick_length {N : ℕ} (z : Fin N → ℝ) (S : Finset (Fin N)) : (pick z S).length = S.card := by
  unfold pick
  rw [List.length_map, ← List.toFinset_card_of_nodup ((List.nodup_finRange N).filter _)]
  congr 1
  ext i; simp

private lemma pick_countLe {N : ℕ} {z : Fin N → ℝ} (hz : StrictMono z) (S : Finset (Fin N)) (k : Fin N) :
    countLe (pick z S) (z k) = (S.filter fun i => i ≤ k).card := by
  unfold countLe pick
  rw [List.countP_map, List.countP_eq_length_filter,
    ← List.toFinset_card_of_nodup (((List.nodup_finRange N).filter _).filter _)]
  congr 1
  ext i
  simp [hz.le_iff_le, and_comm]

private lemma pick_sorted {N : ℕ} {z : Fin N → ℝ} (hz : StrictMono z) (S : Finset (Fin N)) :
    (pick z S).Pairwise (· ≤ ·) := by
  unfold pick
  rw [List.pairwise_map]
  refine List.Pairwise.filter _ ?_
  exact (List.pairwise_lt_finRange N).imp fun h => (hz h).le

/-- Deviation of the membership of `i` from its mean. -/
private noncomputable def dev {N : ℕ} (n : ℕ) (S : Finset (Fin N)) (i : Fin N) : ℝ := (if i ∈ S then 1 else 0) - n / N

private lemma dev_sum {N n : ℕ} (hN : 0 < N) {S : Finset (Fin N)} (hS : S.card = n) : ∑ i, dev n S i = 0 := by
  have : (N : ℝ) ≠ 0 := by positivity
  unfold dev
  rw [sum_sub_distrib, sum_boole]
  simp [hS]
  field_simp
  ring

private lemma dev_swap {N n : ℕ} (σ : Equiv.Perm (Fin N)) (f : Finset (Fin N) → ℝ) :
    ∑ S ∈ powersetCard n univ, f (S.map σ.toEmbedding) = ∑ S ∈ powersetCard n (univ : Finset (Fin N)), f S := by
  refine sum_bij' (fun S _ => S.map σ.toEmbedding) (fun S _ => S.map σ.symm.toEmbedding) ?_ ?_ ?_ ?_ ?_
  · intro S hS; simp only [mem_powersetCard, subset_univ, true_and, card_map] at hS ⊢; exact hS
  · intro S hS; simp only [mem_powersetCard, subset_univ, true_and, card_map] at hS ⊢; exact hS
  · intro S _; ext i; simp
  · intro S _; ext i; simp
  · intro S _; rfl

private lemma dev_map {N n : ℕ} (σ : Equiv.Perm (Fin N)) (S : Finset (Fin N)) (i : Fin N) :
    dev n (S.map σ.toEmbedding) i = dev n S (σ.symm i) := by
  unfold dev
  simp [mem_map_equiv]

/-- Second moments of the membership indicators. -/
private lemma dev_pair {N n : ℕ} (hN : 2 ≤ N) (i j : Fin N) :
    ∑ S ∈ powersetCard n (univ : Finset (Fin N)), dev n S i * dev n S j
      = (N.choose n : ℝ) * (n * (N - n)) / (N * (N - 1)) * ((if i = j then 1 else 0) - 1 / N) := by
  have hN0 : (0 : ℝ) < N := by exact_mod_cast (by omega : 0 < N)
  have hN1 : (0 : ℝ) < (N : ℝ) - 1 := by
    have : (2 : ℝ) ≤ N := by exact_mod_cast hN
    linarith
  obtain ⟨A, hA⟩ : ∃ A : Fin N → Fin N → ℝ,
      A = fun i j => ∑ S ∈ powersetCard n (univ : Finset (Fin N)), dev n S i * dev n S j := ⟨_, rfl⟩
  have hinv : ∀ (σ : Equiv.Perm (Fin N)) i j, A (σ.symm i) (σ.symm j) = A i j := fun σ i j => by
    rw [hA]; simp only
    rw [← dev_swap σ (fun S => dev n S i * dev n S j)]
    simp only [dev_map]
  have hdiag : ∀ i j, A i i = A j j := fun i j => by
    have := hinv (Equiv.swap i j) j j
    simpa using this
  have hoff : ∀ i j k, i ≠ j → i ≠ k → A i j = A i k := fun i j k hj hk => by
    have := hinv (Equiv.swap j k) i k
    rw [Equiv.symm_swap, Equiv.swap_apply_right, Equiv.swap_apply_of_ne_of_ne hj hk] at this
    exact this
  have hrow : ∀ i, ∑ j, A i j = 0 := fun i => by
    rw [hA]; simp only
    rw [sum_comm]
    refine sum_eq_zero fun S hS => ?_
    rw [← mul_sum, dev_sum (by omega) (mem_powersetCard.1 hS).2, mul_zero]
  have htr : ∑ i, A i i = N.choose n * (n * (N - n) / N) := by
    rw [hA]; simp only
    rw [sum_comm]
    have : ∀ S ∈ powersetCard n (univ : Finset (Fin N)), ∑ i, dev n S i * dev n S i = n * (N - n) / N := by
      intro S hS
      have hc := (mem_powersetCard.1 hS).2
      have : ∀ i, dev n S i * dev n S i = (if i ∈ S then 1 - 2 * ((n : ℝ) / N) else 0) + (n / N) ^ 2 := fun i => by
        unfold dev; split_ifs <;> ring
      rw [sum_congr rfl fun i _ => this i, sum_add_distrib, sum_ite_mem, univ_inter, sum_const, sum_const, hc,
        card_univ, Fintype.card_fin, nsmul_eq_mul, nsmul_eq_mul]
      field_simp
      ring
    rw [sum_congr rfl this, sum_const, card_powersetCard, card_univ, Fintype.card_fin, nsmul_eq_mul]
  have hd : ∀ i, A i i = N.choose n * (n * (N - n) / N) / N := fun i => by
    rw [sum_congr rfl fun j _ => hdiag j i, sum_const, card_univ, Fintype.card_fin, nsmul_eq_mul] at htr
    rw [← htr]; field_simp
  have ho : ∀ i j, i ≠ j → A i j = - A i i / (N - 1) := fun i j hij => by
    have h := hrow i
    rw [← add_sum_erase _ _ (mem_univ i), sum_congr rfl fun k hk => hoff i k j (ne_of_mem_erase hk).symm hij, sum_const,
      card_erase_of_mem (mem_univ i), card_univ, Fintype.card_fin, nsmul_eq_mul, Nat.cast_sub (by omega), Nat.cast_one] at h
    field_simp
    linarith
  have : A i j = (N.choose n : ℝ) * (n * (N - n)) / (N * (N - 1)) * ((if i = j then 1 else 0) - 1 / N) := by
    split_ifs with h
    · subst h
      rw [hd]; field_simp
    · rw [ho i j h, hd]; field_simp; ring
  rw [← this, hA]

private lemma dev_linear {N n : ℕ} (hN : 2 ≤ N) (a : Fin N → ℝ) :
    ∑ S ∈ powersetCard n (univ : Finset (Fin N)), (∑ i, a i * dev n S i) ^ 2
      = (N.choose n : ℝ) * (n * (N - n)) / (N * (N - 1)) * (∑ i, a i ^ 2 - (∑ i, a i) ^ 2 / N) := by
  have h : ∀ S : Finset (Fin N), (∑ i, a i * dev n S i) ^ 2
      = ∑ i, ∑ j, a i * a j * (dev n S i * dev n S j) := fun S => by
    rw [sq, sum_mul_sum]
    exact sum_congr rfl fun i _ => sum_congr rfl fun j _ => by ring
  rw [sum_congr rfl fun S _ => h S, sum_comm]
  have h2 : ∀ i, ∑ S ∈ powersetCard n (univ : Finset (Fin N)), ∑ j, a i * a j * (dev n S i * dev n S j)
      = ∑ j, a i * a j * ((N.choose n : ℝ) * (n * (N - n)) / (N * (N - 1)) * ((if i = j then 1 else 0) - 1 / N)) :=
    fun i => by
      rw [sum_comm]
      refine sum_congr rfl fun j _ => ?_
      rw [← mul_sum, dev_pair hN]
  rw [sum_congr rfl fun i _ => h2 i]
  obtain ⟨β, hβ⟩ : ∃ β, β = (N.choose n : ℝ) * (n * (N - n)) / (N * (N - 1)) := ⟨_, rfl⟩
  rw [← hβ]
  have h3 : ∀ i, ∑ j, a i * a j * (β * ((if i = j then 1 else 0) - 1 / N))
      = β * a i ^ 2 - β / N * (a i * ∑ j, a j) := fun i => by
    have : ∀ j, a i * a j * (β * ((if i = j then 1 else 0) - 1 / N))
        = (if i = j then β * (a i * a j) else 0) - β / N * (a i * a j) := fun j => by
      split_ifs <;> ring
    rw [sum_congr rfl fun j _ => this j, sum_sub_distrib, sum_ite_eq, if_pos (mem_univ i), ← mul_sum, ← mul_sum]
    ring
  rw [sum_congr rfl fun i _ => h3 i, sum_sub_distrib, ← mul_sum, ← mul_sum, ← sum_mul]
  ring

private lemma sum_one (N : ℕ) : ∑ k : Fin N, ((k : ℝ) + 1) = (N : ℝ) * (N + 1) / 2 := by
  induction N with
  | zero => simp
  | succ N ih => rw [Fin.sum_univ_castSucc]; simp only [Fin.val_castSucc, Fin.val_last, ih]; push_cast; ring

private lemma sum_two (N : ℕ) : ∑ k : Fin N, ((k : ℝ) + 1) ^ 2 = (N : ℝ) * (N + 1) * (2 * N + 1) / 6 := by
  induction N with
  | zero => simp
  | succ N ih => rw [Fin.sum_univ_castSucc]; simp only [Fin.val_castSucc, Fin.val_last, ih]; push_cast; ring

private lemma le_count {N : ℕ} (k : Fin N) : ∑ i : Fin N, (if i ≤ k then (1 : ℝ) else 0) = k + 1 := by
  rw [sum_boole]
  have : (univ.filter fun i : Fin N => i ≤ k) = Finset.Iic k := by ext i; simp
  rw [this, Fin.card_Iic]; push_cast; rfl

private lemma ge_count {N : ℕ} (i : Fin N) : ∑ k : Fin N, (if i ≤ k then (1 : ℝ) else 0) = N - i := by
  rw [sum_boole]
  have : (univ.filter fun k : Fin N => i ≤ k) = Finset.Ici i := by ext i; simp
  rw [this, Fin.card_Ici, Nat.cast_sub i.2.le]

private lemma statistic_dev {N n : ℕ} (h0 : 0 < n) (hn : n < N) {z : Fin N → ℝ} (hz : StrictMono z)
    {S : Finset (Fin N)} (hS : S.card = n) :
    watsonStatistic (pick z S) (pick z Sᶜ) = 1 / (n * (N - n)) *
      (∑ k, (∑ i, (if i ≤ k then 1 else 0) * dev n S i) ^ 2 - (∑ i, ((N : ℝ) - i) * dev n S i) ^ 2 / N) := by
  have hn0 : (0 : ℝ) < n := by exact_mod_cast h0
  have hm0 : (0 : ℝ) < (N : ℝ) - n := by
    have : (n : ℝ) < N := by exact_mod_cast hn
    linarith
  have hN0 : (0 : ℝ) < N := by linarith
  have hl : ((pick z S).length : ℝ) = n := by rw [pick_length, hS]
  have hl' : ((pick z Sᶜ).length : ℝ) = N - n := by
    rw [pick_length, card_compl, hS, Fintype.card_fin, Nat.cast_sub hn.le]
  have hd : ∀ k, ecdf (pick z Sᶜ) (z k) - ecdf (pick z S) (z k)
      = -(N / (n * (N - n))) * ∑ i, (if i ≤ k then 1 else 0) * dev n S i := fun k => by
    have c1 : (countLe (pick z S) (z k) : ℝ) = ∑ i, (if i ≤ k then 1 else 0) * (if i ∈ S then 1 else 0) := by
      rw [pick_countLe hz]
      have : ∀ i : Fin N, (if i ≤ k then (1 : ℝ) else 0) * (if i ∈ S then 1 else 0) = if i ∈ S ∧ i ≤ k then 1 else 0 :=
        fun i => by by_cases h1 : i ≤ k <;> by_cases h2 : i ∈ S <;> simp [h1, h2]
      rw [sum_congr rfl fun i _ => this i, sum_boole]
      congr 2; ext i; simp
    have c2 : (countLe (pick z Sᶜ) (z k) : ℝ) = (k + 1) - ∑ i, (if i ≤ k then 1 else 0) * (if i ∈ S then 1 else 0) := by
      rw [pick_countLe hz, ← le_count k, ← sum_sub_distrib]
      have : ∀ i : Fin N, (if i ≤ k then (1 : ℝ) else 0) - (if i ≤ k then (1 : ℝ) else 0) * (if i ∈ S then 1 else 0)
          = if i ∉ S ∧ i ≤ k then 1 else 0 :=
        fun i => by by_cases h1 : i ≤ k <;> by_cases h2 : i ∈ S <;> simp [h1, h2]
      rw [sum_congr rfl fun i _ => this i, sum_boole]
      congr 2; ext i; simp
    have c3 : ∑ i, (if i ≤ k then 1 else 0) * dev n S i
        = ∑ i, (if i ≤ k then 1 else 0) * (if i ∈ S then 1 else 0) - (k + 1) * (n / N) := by
      rw [← le_count k, sum_mul, ← sum_sub_distrib]
      exact sum_congr rfl fun i _ => by unfold dev; ring
    unfold ecdf
    rw [hl, hl', c2, c1, c3]
    field_simp
    ring
  have hsplit : ∀ f : ℝ → ℝ, ((pick z S ++ pick z Sᶜ).map f).sum = ∑ k, f (z k) := fun f => by
    rw [List.map_append, List.sum_append, pick_sum, pick_sum, sum_add_sum_compl]
  have hlin : ∑ k : Fin N, ∑ i, (if i ≤ k then 1 else 0) * dev n S i = ∑ i, ((N : ℝ) - i) * dev n S i := by
    rw [sum_comm]
    exact sum_congr rfl fun i _ => by rw [← sum_mul, ge_count]
  unfold watsonStatistic
  simp only
  rw [hsplit (fun v => (ecdf (pick z Sᶜ) v - ecdf (pick z S) v) ^ 2),
    hsplit (fun v => ecdf (pick z Sᶜ) v - ecdf (pick z S) v), hl, hl']
  simp only [hd, mul_pow]
  rw [← mul_sum, ← mul_sum, hlin]
  field_simp
  ring

/-! ## Property -/

/-- C138. Watson's two-sample statistic: whatever the pooled data, listed in increasing order and far enough apart,
its mean over all ways of splitting them into a first sample of `n` and a second of `N - n` values is
`(N + 1) / (12 N)`. The call succeeds for each of these. -/
theorem C138_watson_two {N n : ℕ} (h0 : 0 < n) (hn : n < N) {z : Fin N → ℝ} (hz : StrictMono z)
    (hsep : Separated (1 / 10 ^ 10) (List.ofFn z)) :
    ∃ U : Finset (Fin N) → ℝ,
      (∀ S ∈ powersetCard n univ,
        watsonU2 [plain (pick z S), plain (pick z Sᶜ)] = .ok (U S, 2 * exp (-19.74 * U S))) ∧
      (∑ S ∈ powersetCard n univ, U S) / N.choose n = (N + 1) / (12 * N) := by
  have hn0 : (0 : ℝ) < n := by exact_mod_cast h0
  have hm0 : (0 : ℝ) < (N : ℝ) - n := by
    have : (n : ℝ) < N := by exact_mod_cast hn
    linarith
  have hN0 : (0 : ℝ) < N := by linarith
  have hN1 : (0 : ℝ) < (N : ℝ) - 1 := by
    have : (2 : ℝ) ≤ N := by exact_mod_cast (by omega : 2 ≤ N)
    linarith
  have hch : (0 : ℝ) < N.choose n := by exact_mod_cast Nat.choose_pos hn.le
  refine ⟨fun S => watsonStatistic (pick z S) (pick z Sᶜ), fun S hS => ?_, ?_⟩
  · have hc := (mem_powersetCard.1 hS).2
    refine C38_sorted _ _ ?_ ?_ (pick_sorted hz S) (pick_sorted hz _) ?_
    · intro h; have := pick_length z S; rw [h, hc] at this; simp at this; omega
    · intro h; have := pick_length z Sᶜ; rw [h, card_compl, hc] at this; simp at this; omega
    · have hm : ∀ v, v ∈ pick z S ++ pick z Sᶜ → v ∈ List.ofFn z := by
        intro v hv
        simp only [pick, List.mem_append, List.mem_map] at hv
        rw [List.mem_ofFn']
        rcases hv with ⟨i, _, rfl⟩ | ⟨i, _, rfl⟩ <;> exact ⟨i, rfl⟩
      exact fun a ha b hb => hsep a (hm a ha) b (hm b hb)
  · have hN : 2 ≤ N := by omega
    rw [sum_congr rfl fun S hS => statistic_dev h0 hn hz (mem_powersetCard.1 hS).2, ← mul_sum, sum_sub_distrib,
      ← sum_div, sum_comm, dev_linear hN, sum_congr rfl fun k _ => dev_linear hN _, ← mul_sum]
    have e1 : ∑ k : Fin N, (∑ i : Fin N, (if i ≤ k then (1 : ℝ) else 0) ^ 2 - (∑ i, if i ≤ k then (1 : ℝ) else 0) ^ 2 / N)
        = N * (N + 1) / 2 - N * (N + 1) * (2 * N + 1) / 6 / N := by
      rw [sum_sub_distrib, ← sum_div]
      have : ∀ k : Fin N, ∑ i : Fin N, (if i ≤ k then (1 : ℝ) else 0) ^ 2 = k + 1 := fun k => by
        rw [← le_count k]
        exact sum_congr rfl fun i _ => by split_ifs <;> norm_num
      simp only [this, le_count]
      rw [sum_one, sum_two]
    have hrev : ∀ i : Fin N, (N : ℝ) - i = ((Fin.rev i : Fin N) : ℝ) + 1 := fun i => by
      rw [Fin.val_rev, Nat.cast_sub (by omega)]; push_cast; ring
    have e2 : ∑ i : Fin N, ((N : ℝ) - i) = N * (N + 1) / 2 := by
      rw [← sum_one N, ← Equiv.sum_comp Fin.revPerm]
      exact sum_congr rfl fun i _ => by rw [hrev, Fin.revPerm_apply, Fin.rev_rev]
    have e3 : ∑ i : Fin N, ((N : ℝ) - i) ^ 2 = N * (N + 1) * (2 * N + 1) / 6 := by
      rw [← sum_two N, ← Equiv.sum_comp Fin.revPerm]
      exact sum_congr rfl fun i _ => by rw [hrev, Fin.revPerm_apply, Fin.rev_rev]
    rw [e1, e2, e3]
    field_simp
    ring

/-- The data `1, 2, 3` meet the conditions: of the three ways of putting one of them aside, the mean is `1/9`. -/
example : ∃ U : Finset (Fin 3) → ℝ,
    (∀ S ∈ powersetCard 1 univ,
      watsonU2 [plain (pick ![1, 2, 3] S), plain (pick ![1, 2, 3] Sᶜ)] = .ok (U S, 2 * exp (-19.74 * U S))) ∧
    (∑ S ∈ powersetCard 1 univ, U S) / (Nat.choose 3 1) = 1 / 9 := by
  have h := C138_watson_two (N := 3) (n := 1) (z := ![1, 2, 3]) (by norm_num) (by norm_num) ?_ ?_
  · obtain ⟨U, h1, h2⟩ := h
    exact ⟨U, h1, by rw [h2]; norm_num⟩
  · intro i j h
    fin_cases i <;> fin_cases j <;> simp at h ⊢
    norm_num
  · intro a ha b hb hab
    simp at ha hb
    rcases ha with rfl | rfl | rfl <;> rcases hb with rfl | rfl | rfl
    all_goals first | exact absurd rfl hab | norm_num [abs_of_pos, abs_of_neg]

end Verif.Props
