import Verif.Lemmas.DistFlat

/-! # The floored table of the flat-topped von Mises distribution at concentration 1000 -/

set_option autoImplicit false

namespace Verif

open Real

theorem vmftGrid_thousand : vmftGridSize 1000 0 = 512 := by
  have hs : √((1000 : ℝ) + 1) ≤ 37 := by rw [sqrt_le_left (by norm_num)]; norm_num
  have e : vmftGridSize 1000 0 = tabSize (√((1000 : ℝ) + 1)) := by
    unfold vmftGridSize; rw [max_eq_left (by norm_num)]; simp
  rw [e]
  unfold tabSize
  have h1 : clip (64 + 12 * √((1000 : ℝ) + 1)) 512 8192 = 2 ^ 9 := by
    unfold clip
    rw [max_eq_right (by linarith), min_eq_left (by norm_num)]
    norm_num
  simp only [h1]
  have h2 : logb 2 ((2 : ℝ) ^ 9) = ((9 : ℕ) : ℝ) := by
    rw [← rpow_natCast, logb_rpow (by norm_num) (by norm_num)]
  rw [h2, Nat.ceil_natCast]
  norm_num

/-- The floored table. -/
theorem vmftTable_floor {kappa nu : ℝ} (hk0 : 0 ≤ kappa) (hk : kappa ≤ 1000) (hn : |nu| ≤ 1) :
    vmftTable kappa nu (vmftGridSize kappa nu)
      = fun j => max (flatG kappa nu (vmftGridSize kappa nu) (tabGrid (vmftGridSize kappa nu) j)) (exp (-700)) := by
  obtain ⟨g1, g2, -⟩ := vmftGrid_spec hk0 hk hn
  have hN : 0 < vmftGridSize kappa nu := by omega
  have hat : ∀ t, max (exp (clip (vmftLogKernel kappa nu t + vmftLogNorm kappa nu (vmftGridSize kappa nu)) (-700) 700)) floatTiny
      = max (flatG kappa nu (vmftGridSize kappa nu) t) (exp (-700)) := fun t => by
    have hpos := flatG_pos hN kappa nu t
    have hlog : vmftLogKernel kappa nu t + vmftLogNorm kappa nu (vmftGridSize kappa nu) = log (flatG kappa nu (vmftGridSize kappa nu) t) := by
      rw [← flatG_eq hN, log_exp]
    have hup : log (flatG kappa nu (vmftGridSize kappa nu) t) ≤ 700 := by
      have h1 := (flatG_le hk0 hk hn t).trans (flatA_le hk0 hk hn)
      have h2 := log_le_sub_one_of_pos hpos
      linarith
    rw [hlog]
    unfold clip
    rw [min_eq_left (max_le hup (by norm_num)), exp_monotone.map_max, exp_log hpos, max_eq_left]
    exact floatTiny_le_exp.trans (le_max_right _ _)
  funext j
  unfold vmftTable
  simp only [hat]
  split_ifs with c
  · rw [c]; unfold flatG; rw [flatKernel_grid_last hN]
  · rfl

/-- The relation between the sums of the floored and the exact table. -/
theorem tabTrap_le_of_le {N : ℕ} {f g : ℕ → ℝ} (h : ∀ j, g j ≤ f j) (k : ℕ) : tabTrap N g k ≤ tabTrap N f k := by
  unfold tabTrap
  refine mul_le_mul_of_nonneg_right (Finset.sum_le_sum fun j _ => ?_) (by positivity)
  have := h j
  have := h (j + 1)
  linarith

theorem tabTrap_mono' {N : ℕ} {f : ℕ → ℝ} (h : ∀ j, 0 ≤ f j) {i k : ℕ} (hik : i ≤ k) : tabTrap N f i ≤ tabTrap N f k := by
  unfold tabTrap
  refine mul_le_mul_of_nonneg_right (Finset.sum_le_sum_of_subset_of_nonneg (Finset.range_mono hik) fun j _ _ => ?_) (by positivity)
  have := h j
  have := h (j + 1)
  positivity

/-- For a symmetric table half of the sum is reached in the middle. -/
theorem tabTrap_half {n : ℕ} {f : ℕ → ℝ} (h : ∀ j, j ≤ 2 * n → f (2 * n - j) = f j) : tabTrap (2 * n) f (2 * n) = 2 * tabTrap (2 * n) f n := by
  unfold tabTrap
  rw [show Finset.range (2 * n) = Finset.range (n + n) by rw [two_mul], Finset.sum_range_add]
  have e : ∑ j ∈ Finset.range n, 1 / 2 * (f (n + j) + f (n + j + 1)) = ∑ j ∈ Finset.range n, 1 / 2 * (f j + f (j + 1)) := by
    rw [← Finset.sum_range_reflect]
    refine Finset.sum_congr rfl fun j hj => ?_
    have hj' := Finset.mem_range.1 hj
    rw [show n + (n - 1 - j) = 2 * n - (j + 1) by omega, show 2 * n - (j + 1) + 1 = 2 * n - j by omega, h (j + 1) (by omega), h j (by omega)]
    ring
  rw [e]
  ring

theorem flat_tail {t : ℝ} (h : cos t ≤ 1 / 5) : flatG 1000 0 512 t ≤ exp (-795) := by
  have h1 := flatG_le (kappa := 1000) (nu := 0) (by norm_num) (by norm_num) (by norm_num) 0
  have h2 := h1.trans (flatA_le (kappa := 1000) (nu := 0) (by norm_num) (by norm_num) (by norm_num))
  rw [vmftGrid_thousand] at h2
  rw [flatG_max]
  have h3 : exp (-(1000 * (1 - cos (t + 0 * sin t)))) ≤ exp (-800) := exp_le_exp.2 (by rw [zero_mul, add_zero]; linarith)
  have h4 : (64 : ℝ) ≤ exp 5 := by
    have := exp_one_gt_d9
    have e : exp 5 = exp 1 ^ 5 := by rw [← exp_nat_mul]; norm_num
    rw [e]
    calc (64 : ℝ) ≤ 2.7 ^ 5 := by norm_num
      _ ≤ exp 1 ^ 5 := pow_le_pow_left₀ (by norm_num) (by linarith) 5
  calc flatG 1000 0 512 0 * exp (-(1000 * (1 - cos (t + 0 * sin t)))) ≤ exp 5 * exp (-800) :=
        mul_le_mul (h2.trans h4) h3 (exp_pos _).le (exp_pos _).le
    _ = exp (-795) := by rw [← exp_add]; norm_num

private lemma exp_gap : 283 * exp (-795) ≤ exp (-700) := by
  have h : (283 : ℝ) ≤ exp 95 := by
    have e : exp 95 = exp 19 ^ 5 := by rw [← exp_nat_mul]; norm_num
    rw [e]
    calc (283 : ℝ) ≤ 20 ^ 5 := by norm_num
      _ ≤ exp 19 ^ 5 := pow_le_pow_left₀ (by norm_num) (by linarith [add_one_le_exp (19 : ℝ)]) 5
  calc 283 * exp (-795) ≤ exp 95 * exp (-795) := mul_le_mul_of_nonneg_right h (exp_pos _).le
    _ = exp (-700) := by rw [← exp_add]; norm_num

theorem grid_cos_le {j : ℕ} (h0 : 371 ≤ j) (h1 : j ≤ 512) : cos (tabGrid 512 j) ≤ 1 / 5 := by
  have hpi := pi_gt_d6
  have hpi2 := pi_lt_d6
  have hj0 : (371 : ℝ) ≤ j := by exact_mod_cast h0
  have hj1 : (j : ℝ) ≤ 512 := by exact_mod_cast h1
  have e : tabGrid 512 j = -π + j * (π / 256) := by unfold tabGrid; push_cast; ring
  have hlow : 1.41 ≤ tabGrid 512 j := by rw [e]; nlinarith
  have hup : tabGrid 512 j ≤ π := by rw [e]; nlinarith
  rcases le_total (tabGrid 512 j) (π / 2) with h | h
  · rw [← sin_pi_div_two_sub]
    have := sin_le (x := π / 2 - tabGrid 512 j) (by linarith)
    norm_num at hlow hpi2
    linarith
  · exact (cos_nonpos_of_pi_div_two_le_of_le h (by linarith)).trans (by norm_num)

theorem trap_gap {f g : ℕ → ℝ} {A B : ℕ} {e E : ℝ} (hA : 0 < A) (hfg : ∀ j, g j ≤ f j) (h0 : g 0 ≤ e) (hE : E ≤ f 0)
    (ht : ∀ j, A ≤ j → j ≤ A + B → g j ≤ e) (hgap : (1 + 2 * B) * e ≤ E) :
    ∑ j ∈ Finset.range (A + B), 1 / 2 * (g j + g (j + 1)) ≤ ∑ j ∈ Finset.range A, 1 / 2 * (f j + f (j + 1)) := by
  have h1 : ∑ j ∈ Finset.range B, 1 / 2 * (g (A + j) + g (A + j + 1)) ≤ B * e := by
    refine (Finset.sum_le_card_nsmul _ _ e fun j hj => ?_).trans (by simp)
    have hj' := Finset.mem_range.1 hj
    have a := ht (A + j) (by omega) (by omega)
    have b := ht (A + j + 1) (by omega) (by omega)
    linarith
  rw [Finset.sum_range_add]
  obtain ⟨A', rfl⟩ : ∃ A', A = A' + 1 := ⟨A - 1, by omega⟩
  rw [Finset.sum_range_succ' (fun j => 1 / 2 * (g j + g (j + 1))), Finset.sum_range_succ' (fun j => 1 / 2 * (f j + f (j + 1)))]
  have h2 : ∑ j ∈ Finset.range A', 1 / 2 * (g (j + 1) + g (j + 1 + 1)) ≤ ∑ j ∈ Finset.range A', 1 / 2 * (f (j + 1) + f (j + 1 + 1)) := by
    refine Finset.sum_le_sum fun j _ => ?_
    have a := hfg (j + 1)
    have b := hfg (j + 1 + 1)
    linarith
  have h3 := hfg (0 + 1)
  linarith

/-- The floored table reaches 1 early. -/
theorem floor_full : 1 ≤ tabTrap 512 (vmftTable 1000 0 512) 371 := by
  have hf := vmftTable_floor (kappa := 1000) (nu := 0) (by norm_num) (by norm_num) (by norm_num)
  rw [vmftGrid_thousand] at hf
  have hsum := flatG_sum (N := 512) (by norm_num) 1000 0
  obtain ⟨g, hg⟩ : ∃ g : ℕ → ℝ, g = fun j => flatG 1000 0 512 (tabGrid 512 j) := ⟨_, rfl⟩
  obtain ⟨f, hfd⟩ : ∃ f, f = vmftTable 1000 0 512 := ⟨_, rfl⟩
  have hfg : ∀ j, f j = max (g j) (exp (-700)) := fun j => by rw [hfd, hf, hg]
  rw [← hfd]
  rw [← hg] at hsum
  have hpos : ∀ j, 0 < g j := fun j => by rw [hg]; exact flatG_pos (by norm_num) _ _ _
  have htail : ∀ j, 371 ≤ j → j ≤ 512 → g j ≤ exp (-795) := fun j a b => by rw [hg]; exact flat_tail (grid_cos_le a b)
  have h0 : g 0 ≤ exp (-795) := by
    rw [hg]
    refine flat_tail ?_
    rw [tabGrid_zero, cos_neg, cos_pi]
    norm_num
  have hgap := exp_gap
  have h := trap_gap (A := 371) (B := 141) (f := f) (g := g) (e := exp (-795)) (E := exp (-700)) (by norm_num)
    (fun j => by rw [hfg]; exact le_max_left _ _) h0 (by rw [hfg]; exact le_max_right _ _) (fun j a b => htail j a b) (by push_cast; linarith)
  rw [← hsum]
  unfold tabTrap
  exact mul_le_mul_of_nonneg_right h (by positivity)

theorem floor_cumul : tabCumul 512 (vmftTable 1000 0 512) 371 = 1 := by
  refine le_antisymm (tabCumul_mem _ _ _).2 ?_
  unfold tabCumul
  rw [if_neg (by norm_num)]
  refine le_trans ?_ (runMax_ge (fun i => clip (tabTrap 512 (vmftTable 1000 0 512) i) 0 1) 371)
  show 1 ≤ clip _ 0 1
  unfold clip
  exact le_min (floor_full.trans (le_max_left _ _)) (le_refl _)

theorem floor_flat {phi : ℝ} (h0 : 1.42 ≤ phi) (h1 : phi ≤ π) : tabH 512 (vmftTable 1000 0 512) phi = 1 := by
  have hpi2 := pi_lt_d6
  have hpi := pi_gt_three
  have e : tabGrid 512 371 = -π + 371 * (π / 256) := by unfold tabGrid; push_cast; ring
  have hn : tabH 512 (vmftTable 1000 0 512) (tabGrid 512 371) = 1 := by rw [tabH_node (by norm_num) _ (by norm_num), floor_cumul]
  refine le_antisymm (tabH_mem (by norm_num) _ (by linarith) h1).2 ?_
  rw [← hn]
  refine tabH_mono (by norm_num) _ ?_ ?_ h1
  · rw [e]; linarith
  · rw [e]; norm_num at h0 hpi2; linarith

/-- In the middle the floored table is between 1/2 and 1. -/
theorem floor_middle : 1 / 2 ≤ tabH 512 (vmftTable 1000 0 512) 0 ∧ tabH 512 (vmftTable 1000 0 512) 0 < 1 := by
  have hf := vmftTable_floor (kappa := 1000) (nu := 0) (by norm_num) (by norm_num) (by norm_num)
  rw [vmftGrid_thousand] at hf
  have hsum := flatG_sum (N := 512) (by norm_num) 1000 0
  obtain ⟨g, hg⟩ : ∃ g : ℕ → ℝ, g = fun j => flatG 1000 0 512 (tabGrid 512 j) := ⟨_, rfl⟩
  obtain ⟨f, hfd⟩ : ∃ f, f = vmftTable 1000 0 512 := ⟨_, rfl⟩
  have hfg : ∀ j, f j = max (g j) (exp (-700)) := fun j => by rw [hfd, hf, hg]
  rw [← hfd]
  rw [← hg] at hsum
  have hpos : ∀ j, 0 < g j := fun j => by rw [hg]; exact flatG_pos (by norm_num) _ _ _
  have hfpos : ∀ j, 0 ≤ f j := fun j => by rw [hfg]; exact (hpos j).le.trans (le_max_left _ _)
  have hsymm : ∀ j, j ≤ 2 * 256 → f (2 * 256 - j) = f j := fun j hj => by
    have hgr : tabGrid 512 (2 * 256 - j) = -tabGrid 512 j := by
      unfold tabGrid
      rw [Nat.cast_sub hj]
      push_cast
      ring
    have hgg : g (2 * 256 - j) = g j := by
      rw [hg]
      show flatKernel _ _ _ / _ = flatKernel _ _ _ / _
      rw [hgr, flatKernel_even]
    rw [hfg, hfg, hgg]
  have hhalf := tabTrap_half (n := 256) hsymm
  have hge : 1 ≤ tabTrap 512 f 512 := by
    have := tabTrap_le_of_le (N := 512) (f := f) (g := g) (fun j => by rw [hfg]; exact le_max_left _ _) 512
    linarith
  have hle : tabTrap 512 f 512 < 2 := by
    have h1 : tabTrap 512 f 512 ≤ tabTrap 512 g 512 + 2 * π * exp (-700) := by
      unfold tabTrap
      have h2 : ∑ j ∈ Finset.range 512, 1 / 2 * (f j + f (j + 1)) ≤ ∑ j ∈ Finset.range 512, 1 / 2 * (g j + g (j + 1)) + 512 * exp (-700) := by
        have h3 : ∀ j ∈ Finset.range 512, 1 / 2 * (f j + f (j + 1)) ≤ 1 / 2 * (g j + g (j + 1)) + exp (-700) := fun j _ => by
          have a : f j ≤ g j + exp (-700) := by rw [hfg]; exact max_le (by linarith [exp_pos (-700)]) (by linarith [hpos j])
          have b : f (j + 1) ≤ g (j + 1) + exp (-700) := by rw [hfg]; exact max_le (by linarith [exp_pos (-700)]) (by linarith [hpos (j + 1)])
          linarith
        refine (Finset.sum_le_sum h3).trans (le_of_eq ?_)
        rw [Finset.sum_add_distrib]
        simp
      calc _ ≤ (∑ j ∈ Finset.range 512, 1 / 2 * (g j + g (j + 1)) + 512 * exp (-700)) * (2 * π / ((512 : ℕ) : ℝ)) :=
            mul_le_mul_of_nonneg_right h2 (by positivity)
        _ = _ := by push_cast; ring
    rw [hsum] at h1
    have h4 : exp (-700) ≤ 1 / 10 := by
      rw [exp_neg, ← one_div]
      exact one_div_le_one_div_of_le (by norm_num) (by linarith [add_one_le_exp (700 : ℝ)])
    have := pi_lt_four
    have := exp_pos (-700)
    nlinarith
  have hmid : tabGrid 512 256 = 0 := by unfold tabGrid; push_cast; ring
  rw [show (2 * 256 : ℕ) = 512 from rfl] at hhalf
  have hcum : tabCumul 512 f 256 = tabTrap 512 f 256 := by
    unfold tabCumul
    rw [if_neg (by norm_num)]
    have hmono : ∀ i, i < 256 → clip (tabTrap 512 f i) 0 1 ≤ clip (tabTrap 512 f (i + 1)) 0 1 := fun i _ => by
      unfold clip
      exact min_le_min_right _ (max_le_max_right _ (tabTrap_mono' hfpos (Nat.le_succ i)))
    rw [runMax_eq (c := fun i => clip (tabTrap 512 f i) 0 1) hmono]
    show clip (tabTrap 512 f 256) 0 1 = _
    unfold clip
    rw [max_eq_left (by linarith), min_eq_left (by linarith)]
  rw [← hmid, tabH_node (by norm_num) _ (by norm_num), hcum]
  constructor <;> linarith

end Verif
