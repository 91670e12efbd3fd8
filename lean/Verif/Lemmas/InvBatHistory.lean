import Verif.Lemmas.InvBatTable

/-! # The tables of the inverse Batschelet distribution after any history of calls -/

set_option autoImplicit false

namespace Verif

open Real MeasureTheory Spec

/-- A call that does not fill the caches for a skewness between 0 and the tolerance within which it counts as 0. -/
def RegularCall : InvBatCall → Prop
  | .pdf _ _ => True
  | .clear => True
  | .cdf _ s => s.nu = 0 ∨ 1 / 10 ^ 12 < |s.nu|
  | .ppf _ s => s.nu = 0 ∨ 1 / 10 ^ 12 < |s.nu|
  | .table _ n _ => |n| ≤ 1 ∧ (n = 0 ∨ 1 / 10 ^ 12 < |n|)

theorem invbat_history_table {solve : (ℝ → ℝ) → Option ℝ} (hs : FindsRoots solve) (guess : ℝ → ℝ) {calls : List InvBatCall}
    (hcalls : ∀ call ∈ calls, RegularCall call) {xi kappa nu lmbd : ℝ} (h : InvBatRegular xi kappa nu lmbd) (hk : kappa ≤ 340) :
    ∃ a, 0 < a ∧ (invbatTable solve (invbatHistory solve guess calls) kappa nu lmbd).1
        = (fun j => a * invbatG kappa nu lmbd (tabGrid (invbatGridSize kappa nu lmbd) j)) ∧
      |a * tabTrap (invbatGridSize kappa nu lmbd) (fun j => invbatG kappa nu lmbd (tabGrid (invbatGridSize kappa nu lmbd) j))
        (invbatGridSize kappa nu lmbd) - 1| ≤ 5 / 10 ^ 10 := by
  obtain ⟨⟨x0, x1⟩, ⟨k0, k1⟩, n0, n1, l0, l1, l2⟩ := h
  have hk0 : 0 ≤ kappa := le_trans (by positivity) k0.le
  obtain ⟨c0, hc0, hp, hacc⟩ := invbatC_spec k0 k1 l0 l1 l2
  obtain ⟨m0, m1⟩ := invbat_exp_bounds hk0 l0
  have hM := invbatMass_pos hk0 l0
  have hNs : 512 ≤ invbatGridSize kappa nu lmbd := (tabSize_spec _).1
  -- the table
  have hbound : ∀ c, (c = c0 ∨ ∃ n N, |n| ≤ 1 ∧ 512 ≤ N ∧ c = 1 / tabTrap N (fun j => invbatG kappa n lmbd (tabGrid N j)) N) →
      exp (-kappa - 3) ≤ c ∧ c ≤ exp (kappa + 3) := by
    rintro c (rfl | ⟨n', N', h1, h2, rfl⟩)
    · exact invbat_inv_bounds m0 m1 hacc
    · obtain ⟨t0, t1⟩ := invbat_trap_bounds hk0 n' lmbd (show 0 < N' by omega)
      have : 0 < tabTrap N' (fun j => invbatG kappa n' lmbd (tabGrid N' j)) N' := lt_of_lt_of_le (by positivity) t0
      refine invbat_inv_bounds t0 t1 ?_
      rw [one_div_mul_cancel this.ne', sub_self, abs_zero]; positivity
  have hraw : ∀ n, |n| ≤ 1 → (n = 0 ∨ 1 / 10 ^ 12 < |n|) → ∀ c, exp (-kappa - 3) ≤ c → c ≤ exp (kappa + 3) → ∀ N,
      invbatRaw solve kappa n lmbd N c = fun j => c * invbatG kappa n lmbd (tabGrid N j) := fun n h1 h2 c h3 h4 N =>
    funext fun j => invbat_raw_eq hs hk0 hk h1 h2 l0 l1 _ h3 h4 j
  have htab := invbatHistory_table solve guess kappa nu lmbd (fun c => c = c0 ∨ ∃ n N, |n| ≤ 1 ∧ 512 ≤ N ∧
      c = 1 / tabTrap N (fun j => invbatG kappa n lmbd (tabGrid N j)) N)
    (fun f => ∃ a, 0 < a ∧ f = (fun j => a * invbatG kappa nu lmbd (tabGrid (invbatGridSize kappa nu lmbd) j)) ∧
      |tabTrap (invbatGridSize kappa nu lmbd) f (invbatGridSize kappa nu lmbd) - 1| ≤ 5 / 10 ^ 10) hc0 (Or.inl rfl) calls (by
    intro call hm n ht st c hc hP
    have hn : |n| ≤ 1 ∧ (n = 0 ∨ 1 / 10 ^ 12 < |n|) := by
      have h1 := hcalls call hm
      cases call with
      | pdf => exact ht.elim
      | clear => exact ht.elim
      | cdf y s =>
        obtain ⟨⟨-, -, -, a, b, -⟩, -, e, -⟩ := ht
        rw [← e]; exact ⟨abs_le.2 ⟨a, b⟩, h1⟩
      | ppf y s =>
        obtain ⟨⟨-, -, -, a, b, -⟩, -, e, -⟩ := ht
        rw [← e]; exact ⟨abs_le.2 ⟨a, b⟩, h1⟩
      | table k n' l => rw [← ht.2.1]; exact h1
    have hNs : 512 ≤ invbatGridSize kappa n lmbd := (tabSize_spec _).1
    have hcb := hbound c hP
    have hcpos : 0 < c := (exp_pos _).trans_le hcb.1
    obtain e | ⟨hpos, e⟩ := invbatBuild_norms solve st n (invbatGridSize kappa n lmbd) hc hcpos
    · exact ⟨c, hP, e⟩
    · refine ⟨_, Or.inr ⟨n, invbatGridSize kappa n lmbd, hn.1, hNs, ?_⟩, e⟩
      rw [hraw n hn.1 hn.2 c hcb.1 hcb.2, tabTrap_mul]
      field_simp) (by
    intro st c hc hP
    have hcb := hbound c hP
    have hcpos : 0 < c := (exp_pos _).trans_le hcb.1
    generalize invbatGridSize kappa nu lmbd = N at hNs ⊢
    have hT := lt_of_lt_of_le (by positivity) (invbat_trap_bounds hk0 nu lmbd (show 0 < N by omega)).1
    unfold invbatBuild
    simp only [hc, if_neg (not_le.2 hcpos)]
    rw [hraw nu n0 n1 c hcb.1 hcb.2 N, tabTrap_mul]
    obtain ⟨T, hTd⟩ : ∃ T, T = tabTrap N (fun j => invbatG kappa nu lmbd (tabGrid N j)) N := ⟨_, rfl⟩
    rw [← hTd] at hT ⊢
    rw [if_neg (not_le.2 (by positivity : 0 < c * T))]
    split_ifs with h5
    · refine ⟨1 / T, by positivity, ?_, ?_⟩
      · funext j; field_simp
      · have : (fun j => c * invbatG kappa nu lmbd (tabGrid N j) * (1 / (c * T))) = fun j => 1 / T * invbatG kappa nu lmbd (tabGrid N j) := by
          funext j; field_simp
        simp only [this]
        rw [tabTrap_mul, ← hTd, one_div_mul_cancel hT.ne', sub_self, abs_zero]; positivity
    · refine ⟨c, hcpos, rfl, ?_⟩
      simp only
      rw [tabTrap_mul, ← hTd]
      exact not_lt.1 h5)
  obtain ⟨a, ha, hfa, hmass⟩ := htab
  refine ⟨a, ha, hfa, ?_⟩
  rw [hfa, tabTrap_mul] at hmass
  exact hmass

end Verif
