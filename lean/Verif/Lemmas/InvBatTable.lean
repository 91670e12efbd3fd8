import Verif.Props.DistInvBatB
import Verif.Lemmas.TableError

/-! # The cached tables of the inverse Batschelet distribution -/

set_option autoImplicit false

namespace Verif

open Real MeasureTheory Spec

private lemma clip_clip (k : ℝ) : clip (clip k 0 invbatUpper) 0 invbatUpper = clip k 0 invbatUpper := by
  unfold clip invbatUpper
  rw [max_eq_left (le_min (le_max_right _ _) (by norm_num)), min_eq_left (min_le_right _ _)]

lemma invbatCached_tables (st : InvBatState) (kappa lmbd : ℝ) : (invbatCached st kappa lmbd).2.tables = st.tables := by
  unfold invbatCached
  split <;> rfl

lemma invbatBuild_tables (solve : (ℝ → ℝ) → Option ℝ) (st : InvBatState) (kappa nu lmbd : ℝ) (N : ℕ) :
    (invbatBuild solve st kappa nu lmbd N).2.tables = st.tables := by
  have hs : ∀ (s : InvBatState) c, (s.store kappa lmbd c).tables = s.tables := fun s c => rfl
  have hc := invbatCached_tables st kappa lmbd
  unfold invbatBuild
  simp only
  split <;> split <;> (try split) <;> (try split) <;> (try split) <;> simp_all

lemma invbatTable_tables (solve : (ℝ → ℝ) → Option ℝ) (st : InvBatState) (kappa nu lmbd k n l : ℝ) (M : ℕ) :
    (invbatTable solve st kappa nu lmbd).2.tables k n l M = st.tables k n l M ∨
    (k = kappa ∧ n = nu ∧ l = lmbd ∧ M = invbatGridSize kappa nu lmbd ∧
      (invbatTable solve st kappa nu lmbd).2.tables k n l M
        = some (invbatBuild solve st kappa nu lmbd (invbatGridSize kappa nu lmbd)).1) := by
  unfold invbatTable
  simp only
  split
  · exact Or.inl rfl
  · by_cases h : k = kappa ∧ n = nu ∧ l = lmbd ∧ M = invbatGridSize kappa nu lmbd
    · right; exact ⟨h.1, h.2.1, h.2.2.1, h.2.2.2, by dsimp only; rw [if_pos h]⟩
    · left; dsimp only; rw [if_neg h, invbatBuild_tables]

/-- What a call can do to the table of `(k, n, l)`. -/
lemma invbatRun_tables (solve : (ℝ → ℝ) → Option ℝ) (guess : ℝ → ℝ) (st : InvBatState) (call : InvBatCall) (k n l : ℝ) :
    (call.run solve guess st).tables k n l (invbatGridSize k n l) = st.tables k n l (invbatGridSize k n l) ∨
    (call.run solve guess st).tables k n l (invbatGridSize k n l) = none ∨
    (call.run solve guess st).tables k n l (invbatGridSize k n l)
      = some (invbatBuild solve st k n l (invbatGridSize k n l)).1 := by
  have key : ∀ kappa nu lmbd, (invbatTable solve st kappa nu lmbd).2.tables k n l (invbatGridSize k n l)
        = st.tables k n l (invbatGridSize k n l) ∨
      (invbatTable solve st kappa nu lmbd).2.tables k n l (invbatGridSize k n l)
        = some (invbatBuild solve st k n l (invbatGridSize k n l)).1 := by
    intro kappa nu lmbd
    obtain h | ⟨rfl, rfl, rfl, -, h⟩ := invbatTable_tables solve st kappa nu lmbd k n l (invbatGridSize k n l)
    · exact Or.inl h
    · exact Or.inr h
  cases call with
  | clear => right; left; rfl
  | pdf x s =>
    left
    show (invbatPdfMethod solve st x s).2.tables k n l _ = _
    unfold invbatPdfMethod invbatPdf
    simp only
    split_ifs <;> try rfl
    exact congrFun (congrFun (congrFun (congrFun (invbatCached_tables st (clip s.kappa 0 invbatUpper) s.lmbd) k) n) l) _
  | cdf x s =>
    show (invbatCdfMethod solve st x s).2.tables k n l _ = _ ∨ (invbatCdfMethod solve st x s).2.tables k n l _ = _ ∨ (invbatCdfMethod solve st x s).2.tables k n l _ = _
    unfold invbatCdfMethod invbatCdfScipy invbatCdf
    simp only [clip_clip]
    split_ifs <;> try exact Or.inl rfl
    exact (key _ _ _).imp id Or.inr
  | ppf x s =>
    show (invbatPpfMethod solve guess st x s).2.tables k n l _ = _ ∨ (invbatPpfMethod solve guess st x s).2.tables k n l _ = _ ∨ (invbatPpfMethod solve guess st x s).2.tables k n l _ = _
    unfold invbatPpfMethod invbatPpfScipy invbatPpf
    simp only [clip_clip]
    by_cases h0 : ¬ invbatArgcheck { s with kappa := clip s.kappa 0 invbatUpper }
    · rw [if_pos h0]; exact Or.inl rfl
    rw [if_neg h0]
    by_cases h1 : x = 0
    · rw [if_pos h1]; exact Or.inl rfl
    by_cases h2 : x = 1
    · rw [if_neg h1, if_pos h2]; exact Or.inl rfl
    by_cases h3 : 0 < x ∧ x < 1
    · rw [if_neg h1, if_neg h2, if_pos h3]
      by_cases h4 : clip s.kappa 0 invbatUpper ≤ invbatTol
      · rw [if_pos h4]; exact Or.inl rfl
      · rw [if_neg h4]
        exact (key _ _ _).imp id Or.inr
    · rw [if_neg h1, if_neg h2, if_neg h3]; exact Or.inl rfl
  | table kappa nu lmbd =>
    show (ite _ _ _ : InvBatState).tables k n l _ = _ ∨ (ite _ _ _ : InvBatState).tables k n l _ = _ ∨ (ite _ _ _ : InvBatState).tables k n l _ = _
    by_cases h : clip kappa 0 invbatUpper ≤ invbatTol
    · rw [if_pos h]; exact Or.inl rfl
    · rw [if_neg h]
      exact (key _ _ _).imp id Or.inr

/-- An invariant of the constant of `(k, l)` gives one of the table of `(k, n, l)`. -/
lemma invbatHistory_table (solve : (ℝ → ℝ) → Option ℝ) (guess : ℝ → ℝ) (k n l : ℝ) (P : ℝ → Prop) (Q : (ℕ → ℝ) → Prop) {c0 : ℝ}
    (hc0 : invbatC k l = some c0) (h0 : P c0) (calls : List InvBatCall)
    (hstep : ∀ call ∈ calls, ∀ nu, call.Tabulates k nu l → ∀ st c, (invbatCached st k l).1 = some c → P c →
      ∃ c', P c' ∧ (invbatBuild solve st k nu l (invbatGridSize k nu l)).2.norms k l = some (some c'))
    (hQ : ∀ st c, (invbatCached st k l).1 = some c → P c → Q (invbatBuild solve st k n l (invbatGridSize k n l)).1) :
    Q (invbatTable solve (invbatHistory solve guess calls) k n l).1 := by
  have main : ∀ calls : List InvBatCall, (∀ call ∈ calls, ∀ nu, call.Tabulates k nu l → ∀ st c, (invbatCached st k l).1 = some c → P c →
      ∃ c', P c' ∧ (invbatBuild solve st k nu l (invbatGridSize k nu l)).2.norms k l = some (some c')) →
      ((invbatHistory solve guess calls).tables k n l (invbatGridSize k n l) = none ∨
        ∃ f, Q f ∧ (invbatHistory solve guess calls).tables k n l (invbatGridSize k n l) = some f) := by
    intro calls
    induction calls using List.reverseRecOn with
    | nil => intro _; exact Or.inl rfl
    | append_singleton calls call ih =>
      intro hst
      have hst' : ∀ c ∈ calls, ∀ nu, c.Tabulates k nu l → ∀ st c, (invbatCached st k l).1 = some c → P c →
          ∃ c', P c' ∧ (invbatBuild solve st k nu l (invbatGridSize k nu l)).2.norms k l = some (some c') :=
        fun c hc => hst c (List.mem_append_left _ hc)
      have e : invbatHistory solve guess (calls ++ [call]) = call.run solve guess (invbatHistory solve guess calls) := by
        unfold invbatHistory
        rw [List.foldl_append]; rfl
      rw [e]
      obtain h | h | h := invbatRun_tables solve guess (invbatHistory solve guess calls) call k n l
      · rw [h]; exact ih hst'
      · exact Or.inl h
      · obtain ⟨c, hP, hc⟩ := invbatHistory_invariant solve guess k l P hc0 h0 calls hst'
        exact Or.inr ⟨_, hQ _ c hc hP, h⟩
  unfold invbatTable
  simp only
  obtain h | ⟨f, hf, h⟩ := main calls hstep
  · rw [h]
    obtain ⟨c, hP, hc⟩ := invbatHistory_invariant solve guess k l P hc0 h0 calls hstep
    exact hQ _ c hc hP
  · rw [h]; exact hf

lemma tabTrap_mul (c : ℝ) (N : ℕ) (f : ℕ → ℝ) (k : ℕ) : tabTrap N (fun j => c * f j) k = c * tabTrap N f k := by
  unfold tabTrap
  rw [← mul_assoc, Finset.mul_sum]
  congr 1
  exact Finset.sum_congr rfl fun j _ => by ring

/-- The tabulated sums of a table of mass close to 1. -/
lemma tabCumul_close {N : ℕ} {f : ℕ → ℝ} (hf : ∀ j, 0 ≤ f j) {e : ℝ} (h1 : |tabTrap N f N - 1| ≤ e) {k : ℕ} (hk : k ≤ N) :
    |tabCumul N f k - tabTrap N f k| ≤ e := by
  rcases hk.eq_or_lt with rfl | hk'
  · rw [tabCumul_last, abs_sub_comm]; exact h1
  · have h0 : ∀ i, 0 ≤ tabTrap N f i := fun i => by
      have := tabTrap_mono' (N := N) hf (Nat.zero_le i)
      rwa [tabTrap_zero] at this
    unfold tabCumul
    rw [if_neg hk'.ne, runMax_eq]
    · have hm := tabTrap_mono' (N := N) hf hk
      have hp := h0 k
      have he := (abs_nonneg _).trans h1
      rw [abs_le] at h1
      unfold clip
      rw [max_eq_left hp]
      rcases le_total (tabTrap N f k) 1 with h | h
      · rw [min_eq_left h, sub_self, abs_zero]; exact he
      · rw [min_eq_right h, abs_le]
        constructor <;> linarith
    · intro i _
      unfold clip
      exact min_le_min (max_le_max (tabTrap_mono' hf (by omega)) le_rfl) le_rfl

/-- The interpolated table of an increasing distribution function `D` known at the nodes. -/
lemma tabH_close {N : ℕ} (hN : 0 < N) (f : ℕ → ℝ) {D : ℝ → ℝ} (hD : ∀ s t, -π ≤ s → s ≤ t → t ≤ π → D s ≤ D t) {e d : ℝ}
    (he : ∀ k, k ≤ N → |tabCumul N f k - D (tabGrid N k)| ≤ e)
    (hd : ∀ k, k < N → D (tabGrid N (k + 1)) - D (tabGrid N k) ≤ d) {phi : ℝ} (h0 : -π ≤ phi) (h1 : phi ≤ π) :
    |tabH N f phi - D phi| ≤ e + d := by
  obtain ⟨c1, c2, -⟩ := pchipCell_spec hN (xs := tabGrid N) (x := phi) (by rw [tabGrid_zero]; exact h0) (by rw [tabGrid_last hN]; exact h1)
  have hc := pchipCell_lt hN (tabGrid N) phi
  obtain ⟨i, hi⟩ : ∃ i, pchipCell N (tabGrid N) phi = i := ⟨_, rfl⟩
  rw [hi] at c1 c2 hc
  have hg : ∀ j, j ≤ N → -π ≤ tabGrid N j ∧ tabGrid N j ≤ π := fun j hj => by
    have hp : (0 : ℝ) ≤ 2 * π / N := by positivity
    have h3 : (j : ℝ) * (2 * π / N) ≤ N * (2 * π / N) := mul_le_mul_of_nonneg_right (by exact_mod_cast hj) hp
    have h4 : (N : ℝ) * (2 * π / N) = 2 * π := by field_simp
    have h5 : 0 ≤ (j : ℝ) * (2 * π / N) := by positivity
    unfold tabGrid
    constructor <;> linarith
  have a := tabH_mono hN f (hg i hc.le).1 c1 h1
  have b := tabH_mono hN f h0 c2 (hg (i + 1) hc).2
  rw [tabH_node hN f hc.le] at a
  rw [tabH_node hN f (show i + 1 ≤ N from hc)] at b
  have a' := hD _ _ (hg i hc.le).1 c1 h1
  have b' := hD _ _ h0 c2 (hg (i + 1) hc).2
  have e1 := abs_le.1 (he i hc.le)
  have e2 := abs_le.1 (he (i + 1) hc)
  have e3 := hd i hc
  rw [abs_le]
  constructor <;> linarith

/-- The cdf read from a table that need not increase strictly: it can only go wrong by giving 0 instead of 1. -/
lemma tabCdf_close {g : ℝ → ℝ} (hc : Continuous g) (hper : Function.Periodic g (2 * π)) (hg : ∀ t, 0 ≤ g t)
    (hone : ∫ t in (-π)..π, g t = 1) {N : ℕ} (hN : 0 < N) {f : ℕ → ℝ} {E : ℝ}
    (hE : ∀ phi, -π ≤ phi → phi ≤ π → |tabH N f phi - ∫ t in (-π)..phi, g t| ≤ E) (mu : ℝ) {x : ℝ} (h0 : 0 ≤ x)
    (h1 : x < 2 * π - 1 / 10 ^ 12) :
    |tabCdf N f mu x - ∫ t in (0 : ℝ)..x, g (t - mu)| ≤ 2 * E ∨
      (tabCdf N f mu x = 0 ∧ 1 - 2 * E ≤ ∫ t in (0 : ℝ)..x, g (t - mu)) := by
  have hx2 : x < 2 * π := h1.trans (by norm_num)
  obtain ⟨a, b⟩ := tabRel_mem 0 mu
  have hi : ∀ u v, IntervalIntegrable g volume u v := fun u v => hc.intervalIntegrable u v
  obtain ⟨k, hk⟩ := tabRel_congr 0 mu
  have hint : ∫ t in (0 : ℝ)..x, g (t - mu) = ∫ t in (tabRel 0 mu)..(tabRel 0 mu + x), g t := by
    have e : ∀ t, g (t - mu) = g (t + tabRel 0 mu) := fun t => by
      rw [hk, show t + (0 - mu + k * (2 * π)) = (t - mu) + k * (2 * π) by ring]
      exact ((hper.int_mul k) _).symm
    simp_rw [e]
    rw [intervalIntegral.integral_comp_add_right]
    congr 1 <;> ring
  have hnc : ¬ isclose x (2 * π) 0 (1 / 10 ^ 12) := by
    unfold isclose
    rw [abs_sub_comm, abs_of_pos (by linarith)]
    norm_num
    norm_num at h1
    linarith
  have hE0 := abs_le.1 (hE _ a b.le)
  rw [hint]
  unfold tabCdf
  simp only
  rw [if_neg hnc]
  rcases tabRel_cases h0 hx2 mu with ⟨c, e⟩ | ⟨c, e⟩
  · rw [e, if_neg (not_lt.2 (tabH_mono hN f a (by linarith) c.le))]
    have m0 := tabH_mono hN f a (by linarith : tabRel 0 mu ≤ tabRel 0 mu + x) c.le
    have m1 := (tabH_mem hN f (by linarith : -π ≤ tabRel 0 mu + x) c.le).2
    have m2 := (tabH_mem hN f a b.le).1
    rw [show clip (tabH N f (tabRel 0 mu + x) - tabH N f (tabRel 0 mu)) 0 1 = tabH N f (tabRel 0 mu + x) - tabH N f (tabRel 0 mu) by
      unfold clip; rw [max_eq_left (by linarith), min_eq_left (by linarith)]]
    left
    have hE1 := abs_le.1 (hE (tabRel 0 mu + x) (by linarith) c.le)
    rw [← intervalIntegral.integral_interval_sub_left (hi (-π) _) (hi (-π) _), abs_le]
    constructor <;> linarith
  · have hE1 := abs_le.1 (hE (tabRel 0 mu + x - 2 * π) (by linarith) (by linarith))
    have e1 : ∫ t in (tabRel 0 mu)..(tabRel 0 mu + x), g t = 1 - (∫ t in (-π)..(tabRel 0 mu), g t)
        + ∫ t in (-π)..(tabRel 0 mu + x - 2 * π), g t := by
      rw [← hone, intervalIntegral.integral_interval_sub_left (hi (-π) _) (hi (-π) _)]
      have e2 : ∫ t in (-π)..(tabRel 0 mu + x - 2 * π), g t = ∫ t in π..(tabRel 0 mu + x), g t := by
        have := intervalIntegral.integral_comp_add_right (a := -π) (b := tabRel 0 mu + x - 2 * π) (fun t => g t) (2 * π)
        rw [show -π + 2 * π = π by ring, show tabRel 0 mu + x - 2 * π + 2 * π = tabRel 0 mu + x by ring] at this
        rw [← this]
        congr 1
        funext t
        exact (hper t).symm
      rw [e2, intervalIntegral.integral_add_adjacent_intervals (hi _ _) (hi _ _)]
    have m1 := (tabH_mem hN f (by linarith : -π ≤ tabRel 0 mu + x - 2 * π) (by linarith)).1
    have m2 := (tabH_mem hN f a b.le).2
    have m3 := tabH_mono hN f (by linarith : -π ≤ tabRel 0 mu + x - 2 * π) (by linarith : tabRel 0 mu + x - 2 * π ≤ tabRel 0 mu) b.le
    rw [e, e1]
    rcases m3.eq_or_lt with m | m
    · right
      rw [if_neg (not_lt.2 m.ge), m, sub_self]
      refine ⟨by unfold clip; simp, ?_⟩
      linarith
    · left
      rw [if_pos m, show clip (tabH N f (tabRel 0 mu + x - 2 * π) - tabH N f (tabRel 0 mu) + 1) 0 1
          = tabH N f (tabRel 0 mu + x - 2 * π) - tabH N f (tabRel 0 mu) + 1 by
        unfold clip; rw [max_eq_left (by linarith), min_eq_left (by linarith)], abs_le]
      constructor <;> linarith

end Verif
