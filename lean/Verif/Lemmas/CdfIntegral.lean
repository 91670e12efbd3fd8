import Verif.Lemmas.Distn
import Mathlib.Data.List.Sort

/-! # Lemmas about the generic numerical cdf (`_cdf_integral`) -/

set_option autoImplicit false

namespace Verif

open Real

variable {quad : ℝ → ℝ → ℝ} {lo hi : ℝ}

/-- The values stored by the loop, as a function of the sorted query values only. -/
noncomputable def cdfVals (quad : ℝ → ℝ → ℝ) (lo hi : ℝ) : ℝ × ℝ → List ℝ → List ℝ
  | _, [] => []
  | st, v :: vs =>
    let r := cdfStep quad lo hi st v
    clip r.2 0 1 :: cdfVals quad lo hi r.1 vs

theorem cdfVals_length (st : ℝ × ℝ) (vs : List ℝ) :
    (cdfVals quad lo hi st vs).length = vs.length := by
  induction vs generalizing st with
  | nil => rfl
  | cons v vs ih => simp [cdfVals, ih]

theorem cdfLoop_eq_zip (st : ℝ × ℝ) (ps : List (ℝ × ℕ)) :
    cdfLoop quad lo hi st ps =
      List.zip (ps.map Prod.snd) (cdfVals quad lo hi st (ps.map Prod.fst)) := by
  induction ps generalizing st with
  | nil => rfl
  | cons p ps ih => simp [cdfLoop, cdfVals, ih]

theorem clip01_mem (x : ℝ) : 0 ≤ clip x 0 1 ∧ clip x 0 1 ≤ 1 := by
  unfold clip
  exact ⟨le_min (le_max_right _ _) zero_le_one, min_le_right _ _⟩

theorem clip01_mono {x y : ℝ} (h : x ≤ y) : clip x 0 1 ≤ clip y 0 1 := by
  unfold clip
  exact min_le_min_right _ (max_le_max_right _ h)

theorem clip01_self {x : ℝ} (h0 : 0 ≤ x) (h1 : x ≤ 1) : clip x 0 1 = x := by
  unfold clip; rw [max_eq_left h0, min_eq_left h1]

theorem cdfVals_mem (st : ℝ × ℝ) (vs : List ℝ) :
    ∀ v ∈ cdfVals quad lo hi st vs, 0 ≤ v ∧ v ≤ 1 := by
  induction vs generalizing st with
  | nil => simp [cdfVals]
  | cons x vs ih =>
    intro v hv
    simp only [cdfVals, List.mem_cons] at hv
    rcases hv with rfl | hv
    · exact clip01_mem _
    · exact ih _ v hv

theorem cdfVals_ge (hq : ∀ a b, a ≤ b → 0 ≤ quad a b) (st : ℝ × ℝ) (vs : List ℝ)
    (hv : ∀ v ∈ vs, lo < v) : ∀ v ∈ cdfVals quad lo hi st vs, clip st.1 0 1 ≤ v := by
  induction vs generalizing st with
  | nil => simp [cdfVals]
  | cons x vs ih =>
    have hx : ¬ x ≤ lo := not_le.mpr (hv x (by simp))
    have ht : ∀ v ∈ vs, lo < v := fun v h => hv v (by simp [h])
    intro v hmem
    simp only [cdfVals, List.mem_cons] at hmem
    have hmono : clip st.1 0 1 ≤ clip (cdfStep quad lo hi st x).2 0 1 ∧
        clip st.1 0 1 ≤ clip (cdfStep quad lo hi st x).1.1 0 1 := by
      unfold cdfStep
      rw [if_neg hx]
      by_cases hu : hi ≤ x
      · simp only [hu, if_true]
        have : clip (1 : ℝ) 0 1 = 1 := clip01_self zero_le_one le_rfl
        rw [this]
        exact ⟨(clip01_mem _).2, (clip01_mem _).2⟩
      · simp only [hu, if_false]
        by_cases hs : st.2 + 1 / 10 ^ 15 < min x hi
        · simp only [hs, if_true]
          have : 0 ≤ quad st.2 (min x hi) := hq _ _ (by
            have : (0 : ℝ) < 1 / 10 ^ 15 := by positivity
            linarith)
          exact ⟨clip01_mono (by linarith), clip01_mono (by linarith)⟩
        · simp only [hs, if_false]
          exact ⟨le_rfl, le_rfl⟩
    rcases hmem with rfl | hmem
    · exact hmono.1
    · exact hmono.2.trans (ih _ ht v hmem)

theorem cdfStep_snd_of_gt {st : ℝ × ℝ} {x : ℝ} (hx : lo < x) :
    (cdfStep quad lo hi st x).2 = (cdfStep quad lo hi st x).1.1 := by
  unfold cdfStep
  rw [if_neg (not_le.mpr hx)]
  by_cases hu : hi ≤ x <;> simp [hu]

/-- The stored values are non-decreasing along the sorted queries. -/
theorem cdfVals_pairwise (hq : ∀ a b, a ≤ b → 0 ≤ quad a b) (st : ℝ × ℝ) (vs : List ℝ)
    (hs : vs.Pairwise (· ≤ ·)) : (cdfVals quad lo hi st vs).Pairwise (· ≤ ·) := by
  induction vs generalizing st with
  | nil => simp [cdfVals]
  | cons x vs ih =>
    obtain ⟨h1, h2⟩ := List.pairwise_cons.mp hs
    simp only [cdfVals]
    refine List.pairwise_cons.mpr ⟨?_, ih _ h2⟩
    intro v hv
    by_cases hx : x ≤ lo
    · have : (cdfStep quad lo hi st x).2 = 0 := by unfold cdfStep; rw [if_pos hx]
      rw [this, clip01_self le_rfl zero_le_one]
      exact (cdfVals_mem _ _ v hv).1
    · have hlt := not_le.mp hx
      rw [cdfStep_snd_of_gt hlt]
      exact cdfVals_ge hq _ _ (fun v hv => hlt.trans_le (h1 v hv)) v hv

/-- Repeating a query repeats its answer and leaves the state alone. -/
theorem cdfStep_repeat (st : ℝ × ℝ) (x : ℝ) :
    cdfStep quad lo hi (cdfStep quad lo hi st x).1 x = cdfStep quad lo hi st x := by
  unfold cdfStep
  by_cases hx : x ≤ lo
  · simp [hx]
  · by_cases hu : hi ≤ x
    · have hm : min x hi = hi := min_eq_right hu
      simp [hx, hu]
    · simp only [hx, hu, if_false]
      by_cases hs : st.2 + 1 / 10 ^ 15 < min x hi
      · simp only [hs, if_true]
        have : ¬ (min x hi + 1 / 10 ^ 15 < min x hi) := by
          have : (0 : ℝ) < 1 / 10 ^ 15 := by positivity
          linarith
        simp only [this, if_false]
      · simp only [hs, if_false]

theorem cdfVals_repeat (st : ℝ × ℝ) (x : ℝ) (vs : List ℝ) (hs : (x :: vs).Pairwise (· ≤ ·))
    (k : ℕ) (hk : vs[k]? = some x) :
    (cdfVals quad lo hi st (x :: vs))[k + 1]? = (cdfVals quad lo hi st (x :: vs))[0]? := by
  induction vs generalizing k with
  | nil => simp at hk
  | cons y vs ih =>
    obtain ⟨h1, h2⟩ := List.pairwise_cons.mp hs
    have hxy : y = x := by
      apply le_antisymm _ (h1 y (by simp))
      cases k with
      | zero => simp at hk; exact hk.le
      | succ k =>
        simp only [List.getElem?_cons_succ] at hk
        exact (List.pairwise_cons.mp h2).1 x (List.mem_of_getElem? hk)
    subst hxy
    have e : cdfVals quad lo hi st (y :: y :: vs) =
        clip (cdfStep quad lo hi st y).2 0 1 :: clip (cdfStep quad lo hi st y).2 0 1 ::
          cdfVals quad lo hi (cdfStep quad lo hi st y).1 vs := by
      simp only [cdfVals, cdfStep_repeat]
    have e' : cdfVals quad lo hi st (y :: vs) =
        clip (cdfStep quad lo hi st y).2 0 1 ::
          cdfVals quad lo hi (cdfStep quad lo hi st y).1 vs := by
      simp only [cdfVals]
    cases k with
    | zero => rw [e]; simp
    | succ k =>
      simp only [List.getElem?_cons_succ] at hk
      have := ih h2 k hk
      rw [e'] at this
      rw [e]
      simp only [List.getElem?_cons_succ, List.getElem?_cons_zero] at this ⊢
      exact this

/-- Equal queries get equal answers, wherever they stand in the sorted list. -/
theorem cdfVals_tie (st : ℝ × ℝ) (vs : List ℝ) (hs : vs.Pairwise (· ≤ ·)) (a b : ℕ) (x : ℝ)
    (ha : vs[a]? = some x) (hb : vs[b]? = some x) :
    (cdfVals quad lo hi st vs)[a]? = (cdfVals quad lo hi st vs)[b]? := by
  induction vs generalizing st a b with
  | nil => simp at ha
  | cons y vs ih =>
    cases a with
    | zero =>
      have hy : y = x := by simpa using ha
      subst hy
      cases b with
      | zero => rfl
      | succ b => exact (cdfVals_repeat st y vs hs b (by simpa using hb)).symm
    | succ a =>
      cases b with
      | zero =>
        have hy : y = x := by simpa using hb
        subst hy
        exact cdfVals_repeat st y vs hs a (by simpa using ha)
      | succ b =>
        simp only [cdfVals, List.getElem?_cons_succ]
        exact ih _ (List.pairwise_cons.mp hs).2 a b (by simpa using ha) (by simpa using hb)

/-- What is stored for a query: 0 at or below the lower end, 1 at or above the upper end, and in
between the integral from the lower end, up to the mass of an interval of length `1e-15`. -/
theorem cdfVals_accuracy {B : ℝ} (hadd : ∀ a b c, a ≤ b → b ≤ c → quad a b + quad b c = quad a c)
    (hq : ∀ a b, a ≤ b → 0 ≤ quad a b) (hB : ∀ a b, a ≤ b → quad a b ≤ B * (b - a))
    (hq0 : quad lo lo = 0) (hlo : lo < hi) (st : ℝ × ℝ) (vs : List ℝ) (hs : vs.Pairwise (· ≤ ·))
    (hst : st = (1, hi) ∧ (∀ v ∈ vs, hi ≤ v) ∨
      st.1 = quad lo st.2 ∧ lo ≤ st.2 ∧ ∀ v ∈ vs, lo < v → st.2 ≤ v)
    (a : ℕ) (x : ℝ) (hx : vs[a]? = some x) :
    ∃ r, (cdfVals quad lo hi st vs)[a]? = some r ∧ (x ≤ lo → r = 0) ∧ (hi ≤ x → r = 1) ∧
      (lo < x → x < hi → |r - clip (quad lo x) 0 1| ≤ B * (1 / 10 ^ 15)) := by
  induction vs generalizing st a with
  | nil => simp at hx
  | cons y vs ih =>
    obtain ⟨h1, h2⟩ := List.pairwise_cons.mp hs
    have eps : (0 : ℝ) < 1 / 10 ^ 15 := by positivity
    have hB0 : 0 ≤ B := by
      have h0 := hq lo hi hlo.le
      have h1 := hB lo hi hlo.le
      have : 0 ≤ B * (hi - lo) := h0.trans h1
      exact nonneg_of_mul_nonneg_left this (by linarith)
    rcases hst with ⟨rfl, hall⟩ | ⟨hc, hl, hr⟩
    · have hy : hi ≤ y := hall y (by simp)
      have hstep : cdfStep quad lo hi (1, hi) y = ((1, hi), 1) := by
        unfold cdfStep
        rw [if_neg (by linarith)]
        simp [hy]
      cases a with
      | zero =>
        have hxy : y = x := by simpa using hx
        subst hxy
        refine ⟨1, ?_, fun h => by linarith, fun _ => rfl, fun _ h => by linarith⟩
        simp [cdfVals, hstep, clip01_self zero_le_one le_rfl]
      | succ a =>
        simp only [cdfVals, List.getElem?_cons_succ, hstep]
        exact ih (1, hi) h2 (Or.inl ⟨rfl, fun v hv => hall v (by simp [hv])⟩) a (by simpa using hx)
    · by_cases hyl : y ≤ lo
      · have hstep : cdfStep quad lo hi st y = (st, 0) := by unfold cdfStep; rw [if_pos hyl]
        cases a with
        | zero =>
          have hxy : y = x := by simpa using hx
          subst hxy
          refine ⟨0, ?_, fun _ => rfl, fun h => by linarith, fun h => by linarith⟩
          simp [cdfVals, hstep, clip01_self le_rfl zero_le_one]
        | succ a =>
          simp only [cdfVals, List.getElem?_cons_succ, hstep]
          exact ih st h2 (Or.inr ⟨hc, hl, fun v hv => hr v (by simp [hv])⟩) a (by simpa using hx)
      · have hly := not_le.mp hyl
        by_cases hyu : hi ≤ y
        · have hstep : cdfStep quad lo hi st y = ((1, hi), 1) := by
            unfold cdfStep
            rw [if_neg hyl]
            simp [hyu]
          cases a with
          | zero =>
            have hxy : y = x := by simpa using hx
            subst hxy
            refine ⟨1, ?_, fun h => by linarith, fun _ => rfl, fun _ h => by linarith⟩
            simp [cdfVals, hstep, clip01_self zero_le_one le_rfl]
          | succ a =>
            simp only [cdfVals, List.getElem?_cons_succ, hstep]
            exact ih (1, hi) h2 (Or.inl ⟨rfl, fun v hv => hyu.trans (h1 v hv)⟩) a
              (by simpa using hx)
        · have hyh := not_le.mp hyu
          have hm : min y hi = y := min_eq_left hyh.le
          have hcur : st.2 ≤ y := hr y (by simp) hly
          -- the state after this query
          have hex : ∃ st', cdfStep quad lo hi st y = (st', st'.1) ∧ st'.1 = quad lo st'.2 ∧
              lo ≤ st'.2 ∧ st'.2 ≤ y ∧ y - 1 / 10 ^ 15 ≤ st'.2 := by
            by_cases hsg : st.2 + 1 / 10 ^ 15 < y
            · refine ⟨(st.1 + quad st.2 y, y), ?_, ?_, hly.le, le_rfl, by
                show y - 1 / 10 ^ 15 ≤ y; linarith⟩
              · unfold cdfStep
                rw [if_neg hyl]
                simp only [hm, hsg, if_true, hyu, if_false]
              · show st.1 + quad st.2 y = quad lo y
                rw [hc]; exact hadd _ _ _ hl hcur
            · refine ⟨st, ?_, hc, hl, hcur, by linarith⟩
              unfold cdfStep
              rw [if_neg hyl]
              simp only [hm, hsg, if_false, hyu]
          obtain ⟨st', hstep, hc', hl', hle', hge'⟩ := hex
          cases a with
          | zero =>
            have hxy : y = x := by simpa using hx
            subst hxy
            refine ⟨clip st'.1 0 1, ?_, fun h => by linarith, fun h => by linarith, fun _ _ => ?_⟩
            · simp [cdfVals, hstep]
            · have hlip : ∀ u v : ℝ, u ≤ v → |clip u 0 1 - clip v 0 1| ≤ v - u := by
                intro u v huv
                have := clip01_mono huv
                rw [abs_sub_comm, abs_of_nonneg (by linarith)]
                unfold clip
                rcases le_total u 0 with a | a <;> rcases le_total v 0 with b | b <;>
                  rcases le_total u 1 with c | c <;> rcases le_total v 1 with d | d <;>
                  simp [max_eq_left, max_eq_right, min_eq_left, min_eq_right, a, b, c, d] <;>
                  linarith
              have hsplit := hadd lo st'.2 y hl' hle'
              have hpos := hq st'.2 y hle'
              have hup := hB st'.2 y hle'
              rw [hc']
              refine (hlip _ _ (by linarith)).trans ?_
              have : quad lo y - quad lo st'.2 = quad st'.2 y := by linarith
              rw [this]
              refine hup.trans ?_
              exact mul_le_mul_of_nonneg_left (by linarith) hB0
          | succ a =>
            simp only [cdfVals, List.getElem?_cons_succ, hstep]
            exact ih st' h2 (Or.inr ⟨hc', hl', fun v hv _ => hle'.trans (h1 v hv)⟩) a
              (by simpa using hx)

theorem lookup_zip_getElem {ks : List ℕ} {vs : List ℝ} (hn : ks.Nodup)
    (hl : ks.length = vs.length) (a i : ℕ) (ha : ks[a]? = some i) :
    (List.zip ks vs).lookup i = vs[a]? := by
  induction ks generalizing vs a with
  | nil => simp at ha
  | cons k ks ih =>
    cases vs with
    | nil => simp at hl
    | cons v vs =>
      have hk := List.nodup_cons.mp hn
      rw [List.zip_cons_cons, List.lookup_cons]
      cases a with
      | zero =>
        have : k = i := by simpa using ha
        subst this; simp
      | succ a =>
        simp only [List.getElem?_cons_succ] at ha ⊢
        have : i ≠ k := fun h => hk.1 (h ▸ List.mem_of_getElem? ha)
        have e : (i == k) = false := by simpa using this
        rw [e]
        exact ih hk.2 (by simpa using hl) a ha

/-- The sorted query values. -/
noncomputable def cdfSorted (xs : List ℝ) : List (ℝ × ℕ) :=
  xs.zipIdx.mergeSort fun p q => decide (p.1 ≤ q.1)

theorem cdfSorted_perm (xs : List ℝ) : (cdfSorted xs).Perm xs.zipIdx := List.mergeSort_perm _ _

theorem cdfSorted_fst_perm (xs : List ℝ) : ((cdfSorted xs).map Prod.fst).Perm xs := by
  have := (cdfSorted_perm xs).map Prod.fst
  simpa using this

theorem cdfSorted_pairwise (xs : List ℝ) : ((cdfSorted xs).map Prod.fst).Pairwise (· ≤ ·) := by
  rw [List.pairwise_map]
  have := List.pairwise_mergeSort (le := fun p q : ℝ × ℕ => decide (p.1 ≤ q.1))
    (fun a b c h1 h2 => by
      simp only [decide_eq_true_eq] at *; exact h1.trans h2)
    (fun a b => by
      simp only [Bool.or_eq_true, decide_eq_true_eq]; exact le_total _ _) xs.zipIdx
  exact this.imp (by intro a b h; simpa using h)

theorem cdfSorted_snd_nodup (xs : List ℝ) : ((cdfSorted xs).map Prod.snd).Nodup := by
  have h := (cdfSorted_perm xs).map Prod.snd
  refine h.nodup_iff.mpr ?_
  have : xs.zipIdx.map Prod.snd = List.range' 0 xs.length := by simp
  rw [this]; exact List.nodup_range'

/-- The answer to the query at position `i` stands at some position of the sorted list, together
with its value. -/
theorem cdfIntegral_getElem (xs : List ℝ) (i : ℕ) (x : ℝ) (hx : xs[i]? = some x) :
    ∃ a : ℕ, ((cdfSorted xs).map Prod.fst)[a]? = some x ∧
      (cdfIntegral quad lo hi xs)[i]? =
        (cdfVals quad lo hi (0, lo) ((cdfSorted xs).map Prod.fst))[a]? := by
  have hlen : i < xs.length := by
    by_contra h
    rw [List.getElem?_eq_none (not_lt.mp h)] at hx; simp at hx
  have hmem : (x, i) ∈ cdfSorted xs := by
    rw [(cdfSorted_perm xs).mem_iff, List.mem_iff_getElem?]
    exact ⟨i, by simp [List.getElem?_zipIdx, hx]⟩
  obtain ⟨a, ha⟩ := List.mem_iff_getElem?.mp hmem
  refine ⟨a, by simp [ha], ?_⟩
  have hz : cdfIntegral quad lo hi xs = (List.range xs.length).map fun j =>
      ((cdfLoop quad lo hi (0, lo) (cdfSorted xs)).lookup j).getD 0 := rfl
  rw [hz, List.getElem?_map, List.getElem?_range hlen, cdfLoop_eq_zip]
  have hlook := lookup_zip_getElem (cdfSorted_snd_nodup xs)
    (vs := cdfVals quad lo hi (0, lo) ((cdfSorted xs).map Prod.fst))
    (by rw [cdfVals_length]; simp) a i (by simp [ha])
  simp only [Option.map_some, hlook]
  have hal : a < (cdfVals quad lo hi (0, lo) ((cdfSorted xs).map Prod.fst)).length := by
    rw [cdfVals_length, List.length_map]
    by_contra h
    rw [List.getElem?_eq_none (not_lt.mp h)] at ha; simp at ha
  rw [List.getElem?_eq_getElem hal]; simp

theorem cdfSorted_fst_congr {xs ys : List ℝ} (h : xs.Perm ys) :
    (cdfSorted xs).map Prod.fst = (cdfSorted ys).map Prod.fst := by
  refine List.Perm.eq_of_pairwise (le := (· ≤ ·)) (fun a b _ _ h1 h2 => le_antisymm h1 h2)
    (cdfSorted_pairwise xs) (cdfSorted_pairwise ys) ?_
  exact (cdfSorted_fst_perm xs).trans (h.trans (cdfSorted_fst_perm ys).symm)

end Verif
