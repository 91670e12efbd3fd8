import Verif.Model.Interval
import Verif.Lemmas.Arc
import Verif.Lemmas.Descriptive
import Verif.Props.Utils

/-!
# C24 highest-density interval, C22 bootstrap interval
-/

set_option autoImplicit false

namespace Verif.Props

open Verif Verif.Spec Real

/-- The loop keeps the first window of least width. -/
private lemma hdi_loop (sorted extended : List ℝ) (k : ℕ) (s0 : ℝ) (m : ℕ) (hm : 1 ≤ m) :
    ∃ s < m, (List.range m).foldl (hdiStep sorted extended k) (none, s0, s0) =
        (some (extended.getD (s + k - 1) 0 - sorted.getD s 0), sorted.getD s 0,
          extended.getD (s + k - 1) 0) ∧
      ∀ s' < m, extended.getD (s + k - 1) 0 - sorted.getD s 0 ≤
        extended.getD (s' + k - 1) 0 - sorted.getD s' 0 := by
  induction m, hm using Nat.le_induction with
  | base =>
    refine ⟨0, by omega, ?_, ?_⟩
    · simp [hdiStep]
    · intro s' hs'
      have : s' = 0 := by omega
      subst this; exact le_rfl
  | succ m hm ih =>
    obtain ⟨s, hs, h1, h2⟩ := ih
    rw [List.range_succ, List.foldl_append, h1, List.foldl_cons, List.foldl_nil]
    by_cases hlt : extended.getD (m + k - 1) 0 - sorted.getD m 0 <
        extended.getD (s + k - 1) 0 - sorted.getD s 0
    · refine ⟨m, by omega, ?_, ?_⟩
      · unfold hdiStep
        simp only [decide_eq_true_eq]
        rw [if_pos hlt]
      · intro s' hs'
        rcases Nat.lt_succ_iff_lt_or_eq.1 hs' with h | h
        · exact hlt.le.trans (h2 s' h)
        · subst h; exact le_rfl
    · refine ⟨s, by omega, ?_, ?_⟩
      · unfold hdiStep
        simp only [decide_eq_true_eq]
        rw [if_neg hlt]
      · intro s' hs'
        rcases Nat.lt_succ_iff_lt_or_eq.1 hs' with h | h
        · exact h2 s' h
        · subst h; exact not_lt.1 hlt

/-- The window starting at position `A.length` of the doubled list. -/
private lemma ext_getD (A : List ℝ) (x : ℝ) (B : List ℝ) (k : ℕ) (h1 : 1 ≤ k)
    (hk : k ≤ (A ++ x :: B).length) :
    ((A ++ x :: B) ++ (A ++ x :: B).map (· + 2 * π)).getD (A.length + k - 1) 0 =
      ((x :: B) ++ A.map (· + 2 * π)).getD (k - 1) 0 := by
  have e : (A ++ x :: B) ++ (A ++ x :: B).map (· + 2 * π) =
      A ++ (((x :: B) ++ A.map (· + 2 * π)) ++ (x :: B).map (· + 2 * π)) := by simp
  rw [e, List.getD_eq_getElem?_getD, List.getD_eq_getElem?_getD,
    List.getElem?_append_right (by omega), List.getElem?_append_left]
  · congr 2; omega
  · simp at hk ⊢; omega

private lemma lifted_sorted {A B : List ℝ} {x : ℝ} (hs : (A ++ x :: B).Pairwise (· ≤ ·))
    (h0 : ∀ v ∈ A ++ x :: B, 0 ≤ v ∧ v < 2 * π) :
    ((x :: B) ++ A.map (· + 2 * π)).Pairwise (· ≤ ·) := by
  have hs2 := List.pairwise_append.1 hs
  rw [List.pairwise_append]
  refine ⟨hs2.2.1, ?_, ?_⟩
  · rw [List.pairwise_map]
    exact hs2.1.imp (by intro a b h; linarith)
  · intro a ha b hb
    obtain ⟨v, hv, rfl⟩ := List.mem_map.1 hb
    have h1 := (h0 v (by simp [hv])).1
    have h2 := (h0 a (List.mem_append.2 (Or.inr ha))).2
    linarith

private lemma getD_mem {l : List ℝ} {i : ℕ} (h : i < l.length) : l.getD i 0 ∈ l := by
  rw [List.getD_eq_getElem?_getD, List.getElem?_eq_getElem h, Option.getD_some]
  exact List.getElem_mem h

private lemma split_at (S : List ℝ) {s : ℕ} (h : s < S.length) :
    ∃ A B, S = A ++ S.getD s 0 :: B ∧ A.length = s := by
  refine ⟨S.take s, S.drop (s + 1), ?_, by simp [h.le]⟩
  rw [List.getD_eq_getElem?_getD, List.getElem?_eq_getElem h, Option.getD_some,
    ← List.drop_eq_getElem_cons h, List.take_append_drop]

/-- First `k` entries of a sorted list are at most entry `k`. -/
private lemma count_le_getD {R : List ℝ} (hs : R.Pairwise (· ≤ ·)) {k : ℕ} (h1 : 1 ≤ k)
    (hk : k ≤ R.length) : k ≤ R.countP fun y => decide (y ≤ R.getD (k - 1) 0) := by
  have hlt : k - 1 < R.length := by omega
  have h2 : (R.take k).countP (fun y => decide (y ≤ R.getD (k - 1) 0)) = k := by
    have h3 : (R.take k).countP (fun y => decide (y ≤ R.getD (k - 1) 0)) = (R.take k).length := by
      rw [List.countP_eq_length]
      intro y hy
      obtain ⟨i, hi, rfl⟩ := List.getElem_of_mem hy
      simp only [List.length_take] at hi
      rw [List.getD_eq_getElem?_getD, List.getElem?_eq_getElem hlt, Option.getD_some]
      simp only [List.getElem_take, decide_eq_true_eq]
      rcases Nat.lt_or_ge i (k - 1) with h | h
      · exact List.pairwise_iff_getElem.1 hs i (k - 1) (by omega) hlt h
      · have : i = k - 1 := by omega
        subst this; exact le_rfl
    rw [h3]; simp [hk]
  calc k = (R.take k).countP (fun y => decide (y ≤ R.getD (k - 1) 0)) := h2.symm
    _ ≤ _ := (List.take_sublist k R).countP_le

private lemma window_bounds {n : ℕ} (hn : 1 ≤ n) {ci : ℝ} (h1 : ci < 1) :
    hdiWindow n ci = max 1 ⌊ci * n⌋₊ ∧ 1 ≤ hdiWindow n ci ∧ hdiWindow n ci ≤ n := by
  have hf : ⌊ci * n⌋₊ ≤ n := by
    apply Nat.floor_le_of_le
    have : (0 : ℝ) ≤ n := Nat.cast_nonneg n
    nlinarith
  have e : hdiWindow n ci = max 1 ⌊ci * n⌋₊ := by
    unfold hdiWindow; exact min_eq_left (max_le hn hf)
  refine ⟨e, ?_, ?_⟩
  · rw [e]; exact le_max_left _ _
  · rw [e]; exact max_le hn hf

/-- The interval returned by `compute_hdi` starts and ends at (directions of) samples, covers at
least `max(1, ⌊ci·n⌋)` samples, and no shorter arc covers that many. -/
theorem C24_hdi (samples : List ℝ) (ci : ℝ) (hc0 : 0 < ci) (hc1 : ci < 1) (hne : samples ≠ []) :
    ∃ lb ub W : ℝ, computeHdi samples ci = .ok (lb, ub) ∧
      (0 ≤ lb ∧ lb < 2 * π) ∧ (0 ≤ ub ∧ ub < 2 * π) ∧
      0 ≤ W ∧ W < 2 * π ∧ SameDir ub (lb + W) ∧
      (∃ v ∈ samples, SameDir lb v) ∧ (∃ v ∈ samples, SameDir ub v) ∧
      max 1 ⌊ci * samples.length⌋₊ ≤ countOnArc lb W samples ∧
      ∀ a L, max 1 ⌊ci * samples.length⌋₊ ≤ countOnArc a L samples → W ≤ L := by
  have hp := two_pi_pos'
  set S := sortR (samples.map angmod2pi) with hSd
  have hs : S.Pairwise (· ≤ ·) := sortR_sorted _
  have hlen : S.length = samples.length := by rw [hSd, sortR_length]; simp
  have hn : 1 ≤ S.length := by
    rw [hlen]; exact List.length_pos_iff.2 hne
  have hmem : ∀ {v}, v ∈ S ↔ ∃ y ∈ samples, angmod2pi y = v := by
    intro v; rw [hSd, mem_sortR, List.mem_map]
  have h0 : ∀ v ∈ S, 0 ≤ v ∧ v < 2 * π := by
    intro v hv
    obtain ⟨y, -, rfl⟩ := hmem.1 hv
    exact ⟨angmod2pi_nonneg y, angmod2pi_lt y⟩
  have hcount : ∀ a L, countOnArc a L samples = countOnArc a L S := by
    intro a L
    rw [← countOnArc_angmod a L samples]
    exact (countOnArc_perm (sortR_perm _)).symm
  obtain ⟨hk, hk1, hkn⟩ := window_bounds hn hc1
  set k := hdiWindow S.length ci with hkd
  set E := S ++ S.map (· + 2 * π) with hE
  obtain ⟨s, hsn, hfold, hmin⟩ := hdi_loop S E k (S.getD 0 0) S.length hn
  set lo := S.getD s 0 with hlo
  set up := E.getD (s + k - 1) 0 with hup
  have hlomem : lo ∈ S := getD_mem hsn
  obtain ⟨A, B, hAB, hAs⟩ := split_at S hsn
  rw [← hlo] at hAB
  have hupR : up = ((lo :: B) ++ A.map (· + 2 * π)).getD (k - 1) 0 := by
    have := ext_getD A lo B k hk1 (by rw [← hAB]; exact hkn)
    rw [← hAB, hAs] at this
    rw [hup, hE, this]
  set R := (lo :: B) ++ A.map (· + 2 * π) with hR
  have hRlen : R.length = S.length := by
    conv_rhs => rw [hAB]
    simp [hR]; omega
  have hRs : R.Pairwise (· ≤ ·) := lifted_sorted (by rw [← hAB]; exact hs) (by rw [← hAB]; exact h0)
  have hupmem : up ∈ R := by rw [hupR]; exact getD_mem (by omega)
  have hloup : lo ≤ up := by
    rcases List.mem_cons.1 (show up ∈ lo :: (B ++ A.map (· + 2 * π)) from hupmem) with h | h
    · exact h.ge
    · exact (List.pairwise_cons.1 (show (lo :: (B ++ A.map (· + 2 * π))).Pairwise (· ≤ ·) from
        hRs)).1 _ h
  have hupdir : ∃ v ∈ S, SameDir up v := by
    rcases List.mem_append.1 hupmem with h | h
    · exact ⟨up, by rw [hAB]; exact List.mem_append.2 (Or.inr h), CongMod.refl _ _⟩
    · obtain ⟨v, hv, hve⟩ := List.mem_map.1 h
      exact ⟨v, by rw [hAB]; exact List.mem_append.2 (Or.inl hv), 1, by rw [← hve]; push_cast; ring⟩
  have hW : up - lo < 2 * π := by
    have h1 := hmin 0 (by omega)
    have h2 : E.getD (0 + k - 1) 0 ∈ S := by
      have : E.getD (0 + k - 1) 0 = S.getD (k - 1) 0 := by
        rw [List.getD_eq_getElem?_getD, List.getD_eq_getElem?_getD, hE,
          List.getElem?_append_left (by omega), Nat.zero_add]
      rw [this]; exact getD_mem (by omega)
    have h3 := (h0 _ h2).2
    have h4 := (h0 _ (getD_mem (by omega : 0 < S.length))).1
    linarith
  have hlo0 := h0 lo hlomem
  refine ⟨angmod2pi lo, angmod2pi up, up - lo, ?_, ⟨angmod2pi_nonneg _, angmod2pi_lt _⟩,
    ⟨angmod2pi_nonneg _, angmod2pi_lt _⟩, by linarith, hW, ?_, ?_, ?_, ?_, ?_⟩
  · unfold computeHdi
    rw [if_neg (by simp [hc0, hc1])]
    simp only [← hSd]
    rw [if_neg (by omega)]
    simp only [← hkd, ← hE, hfold]
  · rw [angmod2pi_eq_self hlo0.1 hlo0.2]
    have := angmod2pi_cong up
    convert this using 1; ring
  · obtain ⟨y, hy, hye⟩ := hmem.1 hlomem
    refine ⟨y, hy, ?_⟩
    rw [angmod2pi_eq_self hlo0.1 hlo0.2, ← hye]
    exact angmod2pi_cong y
  · obtain ⟨v, hv, hd⟩ := hupdir
    obtain ⟨y, hy, hye⟩ := hmem.1 hv
    exact ⟨y, hy, (angmod2pi_cong up).trans (hd.trans (hye ▸ angmod2pi_cong y))⟩
  · rw [hcount, ← hlen, ← hk, angmod2pi_eq_self hlo0.1 hlo0.2, countOnArc_eq]
    have h1 := count_le_getD hRs hk1 (by omega : k ≤ R.length)
    rw [← hupR] at h1
    refine h1.trans ?_
    conv_rhs => rw [hAB]
    rw [hR, List.countP_append, List.countP_append, List.countP_map, add_comm]
    apply Nat.add_le_add
    · apply List.countP_mono_left
      intro v hv h
      simp only [Function.comp, decide_eq_true_eq] at h ⊢
      have hv0 := h0 v (by rw [hAB]; simp [hv])
      rcases lt_or_ge v lo with h2 | h2
      · rw [pymod_sub_of_lt h2 (by linarith)]; linarith
      · rw [pymod_sub_of_le h2 (by linarith)]; linarith
    · apply List.countP_mono_left
      intro v hv h
      simp only [decide_eq_true_eq] at h ⊢
      have hvS : v ∈ S := by rw [hAB]; exact List.mem_append.2 (Or.inr hv)
      have hv0 := h0 v hvS
      have h2 : lo ≤ v := by
        rcases List.mem_cons.1 hv with rfl | hv
        · exact le_rfl
        · rw [hAB] at hs
          exact (List.pairwise_cons.1 (List.pairwise_append.1 hs).2.1).1 v hv
      rw [pymod_sub_of_le h2 (by linarith)]; linarith
  · intro a L hL
    rw [hcount, ← hlen, ← hk, countOnArc_eq] at hL
    have hSne : S ≠ [] := List.length_pos_iff.1 hn
    obtain ⟨x, hx, hfirst⟩ := exists_first a hSne
    obtain ⟨A', B', hS', hA', hB'⟩ := sorted_split hs hx
    have hx0 := h0 x hx
    have hAn : A'.length < S.length := by rw [hS']; simp
    have hw := hmin A'.length hAn
    have hlox : S.getD A'.length 0 = x := by
      conv_lhs => rw [hS']
      rw [List.getD_eq_getElem?_getD]
      simp
    have hupx : E.getD (A'.length + k - 1) 0 =
        ((x :: B') ++ A'.map (· + 2 * π)).getD (k - 1) 0 := by
      have := ext_getD A' x B' k hk1 (by rw [← hS']; exact hkn)
      rw [← hS'] at this
      rw [hE, this]
    have hRs' := lifted_sorted (by rw [← hS']; exact hs) (by rw [← hS']; exact h0)
    have hcnt : k ≤ ((x :: B') ++ A'.map (· + 2 * π)).countP fun y => decide (y ≤ x + L) := by
      refine hL.trans ?_
      conv_lhs => rw [hS']
      rw [List.countP_append, List.countP_append, List.countP_map, add_comm]
      apply Nat.add_le_add
      · apply List.countP_mono_left
        intro v hv h
        simp only [decide_eq_true_eq] at h ⊢
        have hvS : v ∈ S := by rw [hS']; exact List.mem_append.2 (Or.inr hv)
        have hv0 := h0 v hvS
        have h2 : x ≤ v := by
          rcases List.mem_cons.1 hv with rfl | hv
          · exact le_rfl
          · exact hB' v hv
        have h3 := pymod_offset_le (hfirst v hvS)
        rw [pymod_sub_of_le h2 (by linarith)] at h3
        have := pymod_nonneg hp (x - a)
        linarith
      · apply List.countP_mono_left
        intro v hv h
        simp only [Function.comp, decide_eq_true_eq] at h ⊢
        have hvS : v ∈ S := by rw [hS']; exact List.mem_append.2 (Or.inl hv)
        have hv0 := h0 v hvS
        have h3 := pymod_offset_le (hfirst v hvS)
        rw [pymod_sub_of_lt (hA' v hv) (by linarith)] at h3
        have := pymod_nonneg hp (x - a)
        linarith
    have := sorted_getD_le hRs' hk1 hcnt 0
    rw [← hupx] at this
    rw [hlox] at hw
    linarith

/-- Levels outside `(0, 1)` and empty input are refused. -/
theorem C24_hdi_refused (samples : List ℝ) (ci : ℝ) (h : ci ≤ 0 ∨ 1 ≤ ci ∨ samples = []) :
    computeHdi samples ci = .error .valueError := by
  unfold computeHdi
  rcases h with h | h | h
  · rw [if_pos (by intro hh; linarith [hh.1])]
  · rw [if_pos (by intro hh; linarith [hh.2])]
  · subst h
    simp [sortR]

/-- Whatever replicates the resampling produced, the bootstrap interval contains their circular
mean, when that mean is defined and the two end points are different directions. -/
theorem C22_bootstrap_contains_mean (samples : List ℝ) (ci m lb ub : ℝ)
    (hm : circMean samples (ones samples) = some m)
    (h : bootstrapInterval samples ci = .ok (lb, ub)) (hne : ¬ SameDir lb ub) :
    OnArc m lb ub := by
  unfold bootstrapInterval at h
  cases hh : computeHdi samples ci with
  | error e => rw [hh] at h; simp [Except.map] at h
  | ok p =>
    rw [hh] at h
    simp only [Except.map, hm, swapIfOutside, Except.ok.injEq] at h
    rw [← C06_isWithin_iff_onArc]
    split_ifs at h with hc
    · obtain ⟨rfl, rfl⟩ := Prod.mk.injEq .. ▸ h
      exact hc
    · obtain ⟨rfl, rfl⟩ := Prod.mk.injEq .. ▸ h
      rcases C06_isWithin_or_swap m p.1 p.2 (fun hs => hne hs.symm) with h1 | h1
      · exact absurd h1 hc
      · exact h1

private lemma except_mapM_forall₂ {α β : Type} (f : α → Except PyErr β) (l : List α) (r : List β)
    (h : l.mapM f = .ok r) : List.Forall₂ (fun a b => f a = .ok b) l r := by
  induction l generalizing r with
  | nil =>
    simp only [List.mapM_nil] at h
    cases h
    exact List.Forall₂.nil
  | cons a l ih =>
    rw [List.mapM_cons] at h
    cases h1 : f a with
    | error e => rw [h1] at h; cases h
    | ok b =>
      rw [h1] at h
      cases h2 : l.mapM f with
      | error e => rw [h2] at h; cases h
      | ok bs =>
        rw [h2] at h
        cases h
        exact List.Forall₂.cons h1 (ih bs h2)

/-- The public bootstrap interval: whatever the random draws were, there are as many replicate
directions as draws, the end points are those of the highest-density interval of the replicates
(possibly exchanged), and the interval contains the circular mean of the replicates whenever that
mean is defined and the end points differ. -/
theorem C22_bootstrap_ci (alpha : List ℝ) (w : Option (List ℝ)) (mean r n : Option ℝ)
    (ci chi z lb ub : ℝ) (draws : List (List ℝ))
    (h : circMeanCi (some alpha) w mean r n ci chi z draws "bootstrap" = .ok (some (lb, ub))) :
    ∃ reps : List ℝ, reps.length = draws.length ∧ (∀ x ∈ reps, 0 ≤ x ∧ x < 2 * π) ∧
      (∃ l u, computeHdi reps ci = .ok (l, u) ∧ ((lb, ub) = (l, u) ∨ (lb, ub) = (u, l))) ∧
      ∀ m, circMean reps (ones reps) = some m → ¬ SameDir lb ub → OnArc m lb ub := by
  have hraw : circMeanCiRaw (some alpha) w mean r n ci chi z draws "bootstrap" =
      (ciBootstrap alpha draws ci).map some := by
    simp [circMeanCiRaw]
  unfold circMeanCi at h
  rw [hraw] at h
  cases hb : ciBootstrap alpha draws ci with
  | error e => rw [hb] at h; simp [Except.map] at h
  | ok p =>
    rw [hb] at h
    simp only [Except.map, Option.map_some, Except.ok.injEq, Option.some.injEq,
      Prod.mk.injEq] at h
    unfold ciBootstrap at hb
    split_ifs at hb with h1
    split at hb
    · cases hb
    · rename_i r' hr'
      split_ifs at hb with h2
      simp only at hb
      cases hm : draws.mapM fun d => circMeanResample d ((covTrig alpha).1, (covTrig alpha).2.1)
          (v0Matrix (covTrig alpha).2.2.1 (covTrig alpha).2.2.2.1 (covTrig alpha).2.2.2.2) with
      | error e => rw [hm] at hb; cases hb
      | ok reps =>
        rw [hm] at hb
        simp only [Except.bind] at hb
        have hf := except_mapM_forall₂ _ _ _ hm
        have hrange : ∀ x ∈ reps, 0 ≤ x ∧ x < 2 * π := by
          intro x hx
          obtain ⟨d, -, hd⟩ : ∃ d ∈ draws, circMeanResample d ((covTrig alpha).1, (covTrig alpha).2.1)
              (v0Matrix (covTrig alpha).2.2.1 (covTrig alpha).2.2.2.1 (covTrig alpha).2.2.2.2)
                = .ok x := by
            clear hm hb hraw h1
            induction hf with
            | nil => simp at hx
            | cons ha hr ih =>
              rcases List.mem_cons.1 hx with rfl | hx
              · exact ⟨_, by simp, ha⟩
              · obtain ⟨d, hd, he⟩ := ih hx
                exact ⟨d, by simp [hd], he⟩
          unfold circMeanResample at hd
          simp only at hd
          split_ifs at hd
          simp only [Except.ok.injEq] at hd
          rw [← hd]
          exact ⟨angmod2pi_nonneg _, angmod2pi_lt _⟩
        refine ⟨reps, hf.length_eq.symm, hrange, ?_⟩
        have hb' := hb
        unfold bootstrapInterval at hb'
        cases hh : computeHdi reps ci with
        | error e => rw [hh] at hb'; simp [Except.map] at hb'
        | ok q =>
          have hq : (0 ≤ q.1 ∧ q.1 < 2 * π) ∧ (0 ≤ q.2 ∧ q.2 < 2 * π) := by
            unfold computeHdi at hh
            split_ifs at hh
            simp only at hh
            split_ifs at hh
            simp only [Except.ok.injEq] at hh
            rw [← hh]
            exact ⟨⟨angmod2pi_nonneg _, angmod2pi_lt _⟩, ⟨angmod2pi_nonneg _, angmod2pi_lt _⟩⟩
          rw [hh] at hb'
          have hpq : p = q ∨ p = (q.2, q.1) := by
            simp only [Except.map] at hb'
            split at hb'
            · right; simpa using hb'.symm
            · unfold swapIfOutside at hb'
              split_ifs at hb'
              · left; simpa using hb'.symm
              · right; simpa using hb'.symm
          have hp0 : (lb, ub) = p := by
            have e1 : angmod2pi p.1 = p.1 := by
              rcases hpq with rfl | rfl
              · exact angmod2pi_eq_self hq.1.1 hq.1.2
              · exact angmod2pi_eq_self hq.2.1 hq.2.2
            have e2 : angmod2pi p.2 = p.2 := by
              rcases hpq with rfl | rfl
              · exact angmod2pi_eq_self hq.2.1 hq.2.2
              · exact angmod2pi_eq_self hq.1.1 hq.1.2
            rw [e1, e2] at h
            rw [← h.1, ← h.2]
          refine ⟨⟨q.1, q.2, rfl, ?_⟩, ?_⟩
          · rw [hp0]; exact hpq
          · intro m hm' hne
            exact C22_bootstrap_contains_mean reps ci m lb ub hm' (by rw [hp0]; exact hb) hne

/-- Samples that look uniform (`exp(-n r²) > 0.05`), no data, and `B = 0` are refused. -/
theorem C22_bootstrap_refused (alpha : List ℝ) (w : Option (List ℝ)) (mean r n : Option ℝ)
    (ci chi z : ℝ) (draws : List (List ℝ))
    (h : draws = [] ∨ alpha = [] ∨
      0.05 < exp (-(alpha.length * ‖moment alpha (ones alpha) 1‖ ^ 2))) :
    circMeanCi (some alpha) w mean r n ci chi z draws "bootstrap" = .error .valueError := by
  have hb : ciBootstrap alpha draws ci = .error .valueError := by
    unfold ciBootstrap
    by_cases hd : draws.length = 0
    · rw [if_pos hd]
    · rw [if_neg hd, circR_eq]
      rcases h with h | h | h
      · simp [h] at hd
      · subst h; simp [ones]
      · by_cases hs : (ones alpha).sum = 0
        · rw [if_pos hs]
        · rw [if_neg hs]
          simp only
          rw [if_pos h]
  simp [circMeanCi, circMeanCiRaw, hb, Except.map]

/-- C24 on three observations: half of the mass is one observation, so the interval is a point. -/
example : ∃ lb ub : ℝ, computeHdi [0, 1, 2] 0.5 = .ok (lb, ub) ∧ SameDir ub lb := by
  obtain ⟨lb, ub, W, h, -, -, hW0, -, hub, ⟨v, hv, hlv⟩, -, -, hmin⟩ :=
    C24_hdi [0, 1, 2] 0.5 (by norm_num) (by norm_num) (by simp)
  refine ⟨lb, ub, h, ?_⟩
  have hk : max 1 ⌊(0.5 : ℝ) * ([0, 1, 2] : List ℝ).length⌋₊ = 1 := by
    have : ⌊(0.5 : ℝ) * ([0, 1, 2] : List ℝ).length⌋₊ = 1 := by
      rw [Nat.floor_eq_iff (by positivity)]; norm_num
    rw [this]; rfl
  rw [hk] at hmin
  have hW : W ≤ 0 := by
    refine hmin v 0 (List.countP_pos_iff.2 ⟨v, hv, ?_⟩)
    simp only [decide_eq_true_eq]
    exact ⟨0, le_rfl, le_rfl, by rw [add_zero]; exact CongMod.refl (2 * π) v⟩
  have : W = 0 := le_antisymm hW hW0
  rw [this, add_zero] at hub
  exact hub

end Verif.Props
