import Verif.Lemmas.InvBatCode

/-! # What calls do to the cached normalising constants -/

set_option autoImplicit false

namespace Verif

open Real Spec

lemma invbatCached_norms (st : InvBatState) (kappa lmbd : ℝ) :
    (invbatCached st kappa lmbd).2.norms kappa lmbd = some (invbatCached st kappa lmbd).1 := by
  unfold invbatCached
  split
  · next c hc => exact hc
  · unfold InvBatState.store; simp

lemma invbatCached_other (st : InvBatState) {kappa lmbd k l : ℝ} (h : ¬ (k = kappa ∧ l = lmbd)) :
    (invbatCached st kappa lmbd).2.norms k l = st.norms k l := by
  unfold invbatCached
  split
  · rfl
  · unfold InvBatState.store; simp [h]

lemma invbatBuild_other (solve : (ℝ → ℝ) → Option ℝ) (st : InvBatState) {kappa lmbd k l : ℝ} (nu : ℝ) (N : ℕ)
    (h : ¬ (k = kappa ∧ l = lmbd)) : (invbatBuild solve st kappa nu lmbd N).2.norms k l = st.norms k l := by
  have hs : ∀ (s : InvBatState) c, (s.store kappa lmbd c).norms k l = s.norms k l := by
    intro s c; unfold InvBatState.store; simp [h]
  have hc := invbatCached_other st h
  unfold invbatBuild
  simp only
  split <;> split <;> (try split) <;> (try split) <;> (try split) <;> simp_all

/-- The constant after building a table. -/
lemma invbatBuild_norms (solve : (ℝ → ℝ) → Option ℝ) (st : InvBatState) {kappa lmbd c : ℝ} (nu : ℝ) (N : ℕ)
    (hc : (invbatCached st kappa lmbd).1 = some c) (hc0 : 0 < c) :
    (invbatBuild solve st kappa nu lmbd N).2.norms kappa lmbd = some (some c) ∨
    (0 < tabTrap N (invbatRaw solve kappa nu lmbd N c) N ∧
      (invbatBuild solve st kappa nu lmbd N).2.norms kappa lmbd = some (some (c / tabTrap N (invbatRaw solve kappa nu lmbd N c) N))) := by
  have hn := invbatCached_norms st kappa lmbd
  unfold invbatBuild
  simp only [hc, if_neg (not_le.2 hc0)]
  by_cases h1 : tabTrap N (invbatRaw solve kappa nu lmbd N c) N ≤ 0
  · rw [if_pos h1]; left; rw [← hc]; exact hn
  · rw [if_neg h1]
    have h1' := not_le.1 h1
    by_cases h2 : 5 / 10 ^ 10 < |tabTrap N (invbatRaw solve kappa nu lmbd N c) N - 1|
    · rw [if_pos h2]
      refine Or.inr ⟨h1', ?_⟩
      unfold InvBatState.store
      simp only [and_self, if_true]
      rw [exp_add, exp_log hc0, exp_log (by positivity), mul_one_div]
    · rw [if_neg h2]; left; rw [← hc]; exact hn

lemma invbatTable_norms (solve : (ℝ → ℝ) → Option ℝ) (st : InvBatState) (kappa nu lmbd k l : ℝ) :
    (invbatTable solve st kappa nu lmbd).2.norms k l = st.norms k l ∨
    (k = kappa ∧ l = lmbd ∧ (invbatTable solve st kappa nu lmbd).2.norms k l
      = (invbatBuild solve st kappa nu lmbd (invbatGridSize kappa nu lmbd)).2.norms kappa lmbd) := by
  unfold invbatTable
  simp only
  split
  · exact Or.inl rfl
  · by_cases h : k = kappa ∧ l = lmbd
    · right; exact ⟨h.1, h.2, by rw [h.1, h.2]⟩
    · left; exact invbatBuild_other solve st nu _ h

/-- The calls that build (or look up) the table of `(kappa, nu, lmbd)`. -/
def InvBatCall.Tabulates (kappa nu lmbd : ℝ) : InvBatCall → Prop
  | .pdf _ _ => False
  | .cdf _ s => invbatArgcheck { s with kappa := clip s.kappa 0 invbatUpper } ∧ clip s.kappa 0 invbatUpper = kappa ∧ s.nu = nu ∧ s.lmbd = lmbd
  | .ppf _ s => invbatArgcheck { s with kappa := clip s.kappa 0 invbatUpper } ∧ clip s.kappa 0 invbatUpper = kappa ∧ s.nu = nu ∧ s.lmbd = lmbd
  | .table k n l => clip k 0 invbatUpper = kappa ∧ n = nu ∧ l = lmbd
  | .clear => False

private lemma clip_clip (k : ℝ) : clip (clip k 0 invbatUpper) 0 invbatUpper = clip k 0 invbatUpper := by
  unfold clip invbatUpper
  rw [max_eq_left (le_min (le_max_right _ _) (by norm_num)), min_eq_left (min_le_right _ _)]

/-- The four things a call can do to the constant of `(k, l)`. -/
lemma invbatRun_norms (solve : (ℝ → ℝ) → Option ℝ) (guess : ℝ → ℝ) (st : InvBatState) (call : InvBatCall) (k l : ℝ) :
    (call.run solve guess st).norms k l = st.norms k l ∨ (call.run solve guess st).norms k l = none ∨
    (st.norms k l = none ∧ (call.run solve guess st).norms k l = some (invbatC k l)) ∨
    ∃ nu, call.Tabulates k nu l ∧ (call.run solve guess st).norms k l
      = (invbatBuild solve st k nu l (invbatGridSize k nu l)).2.norms k l := by
  cases call with
  | clear => right; left; rfl
  | pdf x s =>
    show (invbatPdfMethod solve st x s).2.norms k l = _ ∨ (invbatPdfMethod solve st x s).2.norms k l = _ ∨ (_ ∧ (invbatPdfMethod solve st x s).2.norms k l = _) ∨ _
    have key : (invbatPdfMethod solve st x s).2.norms k l = st.norms k l ∨
        (st.norms k l = none ∧ (invbatPdfMethod solve st x s).2.norms k l = some (invbatC k l)) := by
      unfold invbatPdfMethod invbatPdf
      simp only
      split_ifs <;> try exact Or.inl rfl
      · by_cases h : k = clip s.kappa 0 invbatUpper ∧ l = s.lmbd
        · rw [← h.1, ← h.2]
          show (invbatCached st k l).2.norms k l = _ ∨ _ ∧ (invbatCached st k l).2.norms k l = _
          unfold invbatCached
          cases hn : st.norms k l with
          | some c => exact Or.inl hn
          | none => exact Or.inr ⟨rfl, by unfold InvBatState.store; simp⟩
        · exact Or.inl (invbatCached_other st h)
    tauto
  | cdf x s =>
    show (invbatCdfMethod solve st x s).2.norms k l = _ ∨ (invbatCdfMethod solve st x s).2.norms k l = _ ∨ (_ ∧ (invbatCdfMethod solve st x s).2.norms k l = _) ∨ ∃ nu, _ ∧ (invbatCdfMethod solve st x s).2.norms k l = _
    unfold invbatCdfMethod invbatCdfScipy invbatCdf
    simp only [clip_clip]
    by_cases h0 : ¬ invbatArgcheck { s with kappa := clip s.kappa 0 invbatUpper }
    · rw [if_pos h0]; exact Or.inl rfl
    rw [if_neg h0]
    split_ifs <;> try exact Or.inl rfl
    · obtain h | ⟨h1, h2, h3⟩ := invbatTable_norms solve st (clip s.kappa 0 invbatUpper) s.nu s.lmbd k l
      · exact Or.inl h
      · right; right; right
        refine ⟨s.nu, ⟨not_not.1 h0, h1.symm, rfl, h2.symm⟩, ?_⟩
        rw [← h1, ← h2] at h3
        rw [← h1, ← h2]
        exact h3
  | ppf x s =>
    show (invbatPpfMethod solve guess st x s).2.norms k l = _ ∨ (invbatPpfMethod solve guess st x s).2.norms k l = _ ∨ (_ ∧ (invbatPpfMethod solve guess st x s).2.norms k l = _) ∨ ∃ nu, _ ∧ (invbatPpfMethod solve guess st x s).2.norms k l = _
    unfold invbatPpfMethod invbatPpfScipy invbatPpf
    simp only [clip_clip]
    by_cases h0 : ¬ invbatArgcheck { s with kappa := clip s.kappa 0 invbatUpper }
    · rw [if_pos h0]; exact Or.inl rfl
    rw [if_neg h0]
    by_cases h1 : x = 0
    · rw [if_pos h1]; exact Or.inl rfl
    by_cases h2 : x = 1
    · rw [if_neg h1, if_pos h2]; exact Or.inl rfl
    by_cases h3 : 0 < x ∧ x < 1
    · rw [if_neg h1, if_neg h2, if_pos h3]
      by_cases h4 : clip s.kappa 0 invbatUpper ≤ invbatTol
      · rw [if_pos h4]; exact Or.inl rfl
      · rw [if_neg h4]
        obtain h | ⟨h1, h2, h3⟩ := invbatTable_norms solve st (clip s.kappa 0 invbatUpper) s.nu s.lmbd k l
        · exact Or.inl h
        · right; right; right
          refine ⟨s.nu, ⟨not_not.1 h0, h1.symm, rfl, h2.symm⟩, ?_⟩
          rw [← h1, ← h2] at h3
          rw [← h1, ← h2]
          exact h3
    · rw [if_neg h1, if_neg h2, if_neg h3]; exact Or.inl rfl
  | table kappa nu lmbd =>
    show (ite _ _ _ : InvBatState).norms k l = _ ∨ (ite _ _ _ : InvBatState).norms k l = _ ∨ (_ ∧ (ite _ _ _ : InvBatState).norms k l = _) ∨ ∃ nu, _ ∧ (ite _ _ _ : InvBatState).norms k l = _
    by_cases h : clip kappa 0 invbatUpper ≤ invbatTol
    · rw [if_pos h]; exact Or.inl rfl
    · rw [if_neg h]
      obtain h | ⟨h1, h2, h3⟩ := invbatTable_norms solve st (clip kappa 0 invbatUpper) nu lmbd k l
      · exact Or.inl h
      · right; right; right
        refine ⟨nu, ⟨h1.symm, rfl, h2.symm⟩, ?_⟩
        rw [← h1, ← h2] at h3
        rw [← h1, ← h2]
        exact h3

/-- An invariant of the constant of `(k, l)` along a history. -/
lemma invbatHistory_invariant (solve : (ℝ → ℝ) → Option ℝ) (guess : ℝ → ℝ) (k l : ℝ) (P : ℝ → Prop) {c0 : ℝ}
    (hc0 : invbatC k l = some c0) (h0 : P c0) (calls : List InvBatCall)
    (hstep : ∀ call ∈ calls, ∀ nu, call.Tabulates k nu l → ∀ st c, (invbatCached st k l).1 = some c → P c →
      ∃ c', P c' ∧ (invbatBuild solve st k nu l (invbatGridSize k nu l)).2.norms k l = some (some c')) :
    ∃ c, P c ∧ (invbatCached (invbatHistory solve guess calls) k l).1 = some c := by
  have conv : ∀ st : InvBatState, (st.norms k l = none ∨ ∃ c, P c ∧ st.norms k l = some (some c)) →
      ∃ c, P c ∧ (invbatCached st k l).1 = some c := by
    intro st h
    unfold invbatCached
    obtain h | ⟨c, h1, h2⟩ := h
    · rw [h]; exact ⟨c0, h0, hc0⟩
    · rw [h2]; exact ⟨c, h1, rfl⟩
  refine conv _ ?_
  unfold invbatHistory
  have main : ∀ (calls : List InvBatCall) (st : InvBatState),
      (∀ call ∈ calls, ∀ nu, call.Tabulates k nu l → ∀ st c, (invbatCached st k l).1 = some c → P c →
      ∃ c', P c' ∧ (invbatBuild solve st k nu l (invbatGridSize k nu l)).2.norms k l = some (some c')) →
      (st.norms k l = none ∨ ∃ c, P c ∧ st.norms k l = some (some c)) →
      ((calls.foldl (fun st c => c.run solve guess st) st).norms k l = none ∨
        ∃ c, P c ∧ (calls.foldl (fun st c => c.run solve guess st) st).norms k l = some (some c)) := by
    intro calls
    induction calls with
    | nil => intro st _ h; exact h
    | cons call calls ih =>
      intro st hst h
      rw [List.foldl_cons]
      refine ih _ (fun c hc => hst c (List.mem_cons_of_mem _ hc)) ?_
      obtain e | e | ⟨-, e⟩ | ⟨nu, ht, e⟩ := invbatRun_norms solve guess st call k l
      · rw [e]; exact h
      · exact Or.inl e
      · right; exact ⟨c0, h0, by rw [e, hc0]⟩
      · obtain ⟨c, hP, hc⟩ := conv st h
        obtain ⟨c', hP', e'⟩ := hst call List.mem_cons_self nu ht st c hc hP
        right; exact ⟨c', hP', by rw [e, e']⟩
  exact main calls .empty hstep (Or.inl rfl)

end Verif
