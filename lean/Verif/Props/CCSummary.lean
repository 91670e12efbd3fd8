import Verif.Model.RegressionSummary
import Verif.Props.CCReg
import Mathlib.Data.List.Nodup
import Mathlib.Data.List.ProdSigma
import Mathlib.Data.Fintype.BigOperators

/-! # C129: the table of coefficients printed by `CCRegression.summary` -/

set_option autoImplicit false

namespace Verif.Props

open Real Verif Verif.Spec

variable {n m K : ℕ}

private def terms (m K : ℕ) : List (Fin m × Fin K) :=
  (List.finRange m).flatMap fun j => (List.finRange K).map fun k => (j, k)

private lemma mem_terms (q : Fin m × Fin K) : q ∈ terms m K := by
  simp [terms, List.mem_flatMap]

private lemma nodup_terms : (terms m K).Nodup :=
  (List.nodup_finRange m).product (List.nodup_finRange K)

private lemma sum_terms (f : Fin m × Fin K → ℝ) : ((terms m K).map f).sum = ∑ j, ∑ k, f (j, k) := by
  rw [← List.sum_toFinset f nodup_terms, ← Fintype.sum_prod_type']
  refine Finset.sum_congr ?_ fun _ _ => rfl
  ext q; simp [mem_terms]

private lemma length_terms : (terms m K).length = m * K := by
  simp [terms, List.length_flatMap]

private lemma labels_eq : ccLabels m K = (terms m K).map fun q => ((q.1 : ℕ), (q.2 : ℕ) + 1) := by
  have h : ∀ l : ℕ, List.range l = (List.finRange l).map fun x : Fin l => (x : ℕ) := fun l =>
    List.map_coe_finRange_eq_range.symm
  unfold ccLabels terms
  rw [List.map_flatMap, h m, h K, List.flatMap_map]
  refine List.flatMap_congr fun j _ => ?_
  rw [List.map_map, List.map_map]
  rfl

private lemma coefs_eq (b : CCTerm m K → ℝ) : ccCoefs b = b (.inl ()) ::
    ((terms m K).map (fun q => b (.inr (.inl q))) ++ (terms m K).map fun q => b (.inr (.inr q))) := by
  unfold ccCoefs terms
  rw [List.map_flatMap, List.map_flatMap]
  simp only [List.map_map]
  rfl

private lemma zip_rows {α β γ : Type} (ts : List α) (f : α → β) (g : β × ℕ → γ) (h : α → γ)
    (hg : ∀ i (hi : i < ts.length), g (f ts[i], i) = h ts[i]) : ((ts.map f).zipIdx.map g) = ts.map h := by
  apply List.ext_getElem
  · simp
  · intro i h1 h2
    simp only [List.getElem_map, List.getElem_zipIdx, Nat.zero_add]
    exact hg i (by simpa using h2)

private lemma summary_eq (r : CCResult n m K) : ccSummary r =
    ⟨none, some (r.betaCos (.inl ())), some (r.betaSin (.inl ()))⟩ ::
      ((terms m K).map (fun q => ⟨some ("cos", q.1 + 1, q.2 + 1), some (r.betaCos (.inr (.inl q))),
          some (r.betaSin (.inr (.inl q)))⟩) ++
        (terms m K).map fun q => ⟨some ("sin", q.1 + 1, q.2 + 1), some (r.betaCos (.inr (.inr q))),
          some (r.betaSin (.inr (.inr q)))⟩) := by
  unfold ccSummary
  simp only [coefs_eq, labels_eq]
  congr 2
  · refine zip_rows _ _ _ _ fun i hi => ?_
    simp only [Nat.add_comm 1, List.getElem?_cons_succ]
    rw [List.getElem?_append_left (by simpa using hi), List.getElem?_append_left (by simpa using hi)]
    simp [hi]
  · refine zip_rows _ _ _ _ fun i hi => ?_
    simp only [List.length_map, Nat.add_comm 1]
    rw [Nat.add_assoc, Nat.add_comm 1, ← Nat.add_assoc, List.getElem?_cons_succ, List.getElem?_cons_succ,
      List.getElem?_append_right (by simp), List.getElem?_append_right (by simp)]
    simp [hi]

/-- **C129.** The table has the intercept, and exactly one row for the cosine and one for the sine of every harmonic of
every feature; each row shows the coefficients of that term in the two equations, those for the cosine and for the sine
of the response. -/
theorem C129_rows (r : CCResult n m K) :
    (ccSummary r).length = 1 + 2 * (m * K) ∧ ((ccSummary r).map CCRow.label).Nodup ∧
    ⟨none, some (r.betaCos (.inl ())), some (r.betaSin (.inl ()))⟩ ∈ ccSummary r ∧
    ∀ (j : Fin m) (k : Fin K),
      ⟨some ("cos", j + 1, k + 1), some (r.betaCos (.inr (.inl (j, k)))), some (r.betaSin (.inr (.inl (j, k))))⟩
        ∈ ccSummary r ∧
      ⟨some ("sin", j + 1, k + 1), some (r.betaCos (.inr (.inr (j, k)))), some (r.betaSin (.inr (.inr (j, k))))⟩
        ∈ ccSummary r := by
  rw [summary_eq]
  refine ⟨?_, ?_, by simp, fun j k => ⟨?_, ?_⟩⟩
  · simp only [List.length_cons, List.length_append, List.length_map, length_terms]; ring
  · simp only [List.map_cons, List.map_append, List.map_map, List.nodup_cons]
    refine ⟨by simp, List.Nodup.append (nodup_terms.map ?_) (nodup_terms.map ?_) ?_⟩
    · rintro ⟨a, b⟩ ⟨c, d⟩ h
      simpa [Fin.ext_iff] using h
    · rintro ⟨a, b⟩ ⟨c, d⟩ h
      simpa [Fin.ext_iff] using h
    · intro l h1 h2
      simp only [List.mem_map, Function.comp] at h1 h2
      obtain ⟨a, -, rfl⟩ := h1
      obtain ⟨b, -, hb⟩ := h2
      simp at hb
  · refine List.mem_cons_of_mem _ (List.mem_append_left _ (List.mem_map.2 ⟨(j, k), mem_terms _, rfl⟩))
  · refine List.mem_cons_of_mem _ (List.mem_append_right _ (List.mem_map.2 ⟨(j, k), mem_terms _, rfl⟩))

/-- Specification: the term that a label denotes, when features are numbered from 1. -/
noncomputable def labelTerm (x : ℕ → ℝ) : Option (String × ℕ × ℕ) → ℝ
  | none => 1
  | some (f, j, k) => if f = "cos" then cos (k * x j) else sin (k * x j)

private lemma table_sum (r : CCResult n m K) (x : Fin m → ℝ) {y : ℕ → ℝ} (hy : ∀ j : Fin m, y (j + 1) = x j) :
    ((ccSummary r).map fun row => row.cosCoef.getD 0 * labelTerm y row.label).sum = trigPoly r.betaCos x ∧
    ((ccSummary r).map fun row => row.sinCoef.getD 0 * labelTerm y row.label).sum = trigPoly r.betaSin x := by
  rw [summary_eq]
  simp only [List.map_cons, List.map_append, List.map_map, List.sum_cons, List.sum_append, Function.comp_def, sum_terms,
    labelTerm, Option.getD_some, hy, mul_one, if_true, if_neg (by decide : ¬ ("sin" = "cos")), trigPoly,
    ← Finset.sum_add_distrib]
  push_cast
  exact ⟨rfl, rfl⟩

/-- **C129.** The table reproduces the fitted curve: adding up the terms named by the labels, with feature `j` as the
`j`th one counted from 1, times the printed coefficients gives a vector that points to the fitted direction. -/
theorem C129_curve {theta : Fin n → ℝ} {x : Fin n → Fin m → ℝ} {level : ℝ}
    {lstsq : Matrix (Fin n) (CCTerm m K) ℝ → (Fin n → ℝ) → (CCTerm m K → ℝ)}
    {invX : Matrix (CCTerm m K) (CCTerm m K) ℝ → Matrix (CCTerm m K) (CCTerm m K) ℝ}
    {invW : Matrix (Fin m ⊕ Fin m) (Fin m ⊕ Fin m) ℝ → Matrix (Fin m ⊕ Fin m) (Fin m ⊕ Fin m) ℝ} {chi2 : ℝ → ℕ → ℝ}
    {r : CCResult n m K} (h : ccFit theta x K level lstsq invX invW chi2 = .ok r) (i : Fin n) {y : ℕ → ℝ}
    (hy : ∀ j : Fin m, y (j + 1) = x i j) :
    ∃ s, 0 ≤ s ∧
      ((ccSummary r).map fun row => row.cosCoef.getD 0 * labelTerm y row.label).sum = s * cos (r.fitted i) ∧
      ((ccSummary r).map fun row => row.sinCoef.getD 0 * labelTerm y row.label).sum = s * sin (r.fitted i) := by
  obtain ⟨s, h0, h1, h2⟩ := (C55_output theta x h).2.1 i
  obtain ⟨h3, h4⟩ := table_sum r (x i) hy
  exact ⟨s, h0, h3.trans h1, h4.trans h2⟩

/-- **C129.** The labels do not use the names of the features (`feature_names`, `x0, x1, …` for arrays). The rows of
every feature but the last carry the name of the next feature; those of the last carry a name that no feature has, and
no row carries the name of the first. -/
theorem C129_names (r : CCResult n m K) (hK : 0 < K) :
    (∀ j : Fin m, (ccFeatureNames m)[(j : ℕ)]? = some ("x", (j : ℕ)) ∧
      ∃ row ∈ ccSummary r, row.label = some ("cos", (j : ℕ) + 1, 1) ∧
        row.cosCoef = some (r.betaCos (.inr (.inl (j, ⟨0, hK⟩)))) ∧
        ∀ l : Fin m, (ccFeatureNames m)[(l : ℕ)]? = some ("x", (j : ℕ) + 1) → l ≠ j ∧ (l : ℕ) = j + 1) ∧
    (0 < m → ("x", m) ∉ ccFeatureNames m ∧ ∃ row ∈ ccSummary r, row.label = some ("cos", m, 1)) ∧
    ∀ row ∈ ccSummary r, ∀ f k, row.label ≠ some (f, 0, k) := by
  have hmem := (C129_rows r).2.2.2
  have hname : ∀ j : Fin m, (ccFeatureNames m)[(j : ℕ)]? = some ("x", (j : ℕ)) := fun j => by
    simp [ccFeatureNames]
  refine ⟨fun j => ⟨hname j, _, (hmem j ⟨0, hK⟩).1, rfl, rfl, fun l hl => ?_⟩, fun hm => ⟨?_, ?_⟩, ?_⟩
  · rw [hname l] at hl
    simp only [Option.some.injEq, Prod.mk.injEq, true_and] at hl
    refine ⟨fun h => ?_, hl⟩
    rw [h] at hl
    omega
  · simp [ccFeatureNames]
  · refine ⟨_, (hmem ⟨m - 1, by omega⟩ ⟨0, hK⟩).1, ?_⟩
    simp only [Nat.zero_add]
    rw [Nat.sub_add_cancel hm]
  · rw [summary_eq]
    intro row hrow f k hl
    simp only [List.mem_cons, List.mem_append, List.mem_map] at hrow
    rcases hrow with rfl | ⟨q, -, rfl⟩ | ⟨q, -, rfl⟩ <;> simp at hl

/-- Two features and one harmonic: the second column of coefficients, that of the cosine of the feature named `x0`, is
printed as that of `cos(x1,k=1)`. -/
example (r : CCResult n 2 1) : ∃ row ∈ ccSummary r, row.label = some ("cos", 1, 1) ∧
    row.cosCoef = (ccCoefs r.betaCos)[1]? ∧ (ccFeatureNames 2)[0]? = some ("x", 0) ∧
    (ccFeatureNames 2)[1]? = some ("x", 1) :=
  ⟨_, ((C129_rows r).2.2.2 0 0).1, rfl, rfl, rfl, rfl⟩

end Verif.Props
