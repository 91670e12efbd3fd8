import Verif.Lemmas.Samples

/-!
# C36, C88: sample coercion and Watson-Williams test
-/

set_option autoImplicit false

namespace Verif.Props

open Verif Verif.Spec Real

/-- C88. An accepted weighted sample stands for the sample with every angle repeated: `n` is its size,
`r` its mean resultant length, `n ≥ 1`. -/
theorem C88_coerce (alpha w : List ℝ) (s : CSample) (h : coerceSample alpha w = .ok s) :
    IsExpansion alpha w s.expand ∧ s.n = s.expand.length ∧ 0 < s.n ∧
      s.r = ‖resultant s.expand‖ / s.n ∧ s.R = ‖resultant s.expand‖ ∧ 0 ≤ s.r ∧ s.r ≤ 1 := by
  obtain ⟨hv, -, he⟩ := coerceSample_ok h
  have hn : (0 : ℝ) < s.n := by exact_mod_cast hv.n_pos
  refine ⟨he, hv.n_eq, hv.n_pos, hv.r_eq, hv.R_eq, ?_, ?_⟩
  · rw [hv.r_eq]; positivity
  · rw [hv.r_eq, div_le_one hn, hv.n_eq]; exact norm_resultant_le _

/-- C88. A plain non-empty array of angles is always accepted, and stands for itself. -/
theorem C88_coerce_plain (alpha : List ℝ) (h : alpha ≠ []) :
    ∃ s, coerceSample alpha (ones alpha) = .ok s ∧ s.expand = alpha ∧ s.n = alpha.length :=
  ⟨_, coerceSample_plain alpha h, plainSample_expand alpha, rfl⟩

/-- C88. Whole-number weights that are not all zero are always accepted, and the sample has as many
observations as the weights add up to. -/
theorem C88_coerce_integers (alpha : List ℝ) (ks : List ℕ) (h : alpha ≠ [])
    (hl : alpha.length = ks.length) (hk : ks.sum ≠ 0) :
    ∃ s, coerceSample alpha (ks.map fun k : ℕ => (k : ℝ)) = .ok s ∧ s.n = ks.sum ∧
      s.expand = expand alpha ks ∧ s.r = ‖resultant (expand alpha ks)‖ / ks.sum :=
  ⟨_, coerceSample_nat alpha ks h hl hk, rfl, rfl, rfl⟩

/-- C88. Refused: no samples at all, an empty sample, weights of another length, a negative weight, a
weight that is not a whole number, or total weight zero. -/
theorem C88_coerce_refused (alpha w : List ℝ)
    (h : alpha = [] ∨ w.length ≠ alpha.length ∨ (∃ x ∈ w, x < 0) ∨ (∀ x ∈ w, x = 0) ∨
      ∃ x ∈ w, ∃ k : ℕ, k + 0.1 ≤ x ∧ x ≤ k + 0.9 ∧ k ≤ 1000) :
    coerceSample alpha w = .error .valueError := by
  cases hc : coerceSample alpha w with
  | error e =>
    have : coerceSamples [(alpha, w)] = .error e := by
      unfold coerceSamples
      rw [if_neg (by simp), List.mapM_cons, hc]; rfl
    rw [coerceSamples_error this]
  | ok s =>
    exfalso
    obtain ⟨hv, ha, ks, hk, hf, he⟩ := coerceSample_ok hc
    have hwl : w.length = alpha.length := by rw [hf.length_eq, hk]
    have hnn : ∀ x ∈ w, 0 ≤ x := by
      intro x hx
      by_contra hneg
      unfold coerceSample at hc
      rw [if_neg, if_neg (by simp [hwl]), if_pos ⟨x, hx, not_le.1 hneg⟩] at hc
      · cases hc
      · intro h0
        rw [h0] at hwl
        rw [List.length_eq_zero_iff.1 hwl] at hx
        simp at hx
    rcases h with h | h | ⟨x, hx, hneg⟩ | h | ⟨x, hx, k, hk1, hk2, hk3⟩
    · have := hv.n_pos
      rw [hv.n_eq, he, h] at this
      simp [expand] at this
    · exact h hwl
    · linarith [hnn x hx]
    · have h0 : ks.sum = 0 := by
        rw [List.sum_eq_zero_iff]
        intro k hkm
        obtain ⟨v, hv', hc⟩ := forall₂_exists_right hf hkm
        rw [h v hv', zero_sub, abs_neg, abs_of_nonneg (Nat.cast_nonneg k)] at hc
        by_contra hk0
        have : (1 : ℝ) ≤ k := by exact_mod_cast Nat.one_le_iff_ne_zero.2 hk0
        norm_num at hc
        linarith
      have := hv.n_pos
      rw [hv.n_eq, he, length_expand _ _ hk.symm] at this
      omega
    · obtain ⟨k', -, hc⟩ := forall₂_exists_left hf hx
      have hk3' : (k : ℝ) ≤ 1000 := by exact_mod_cast hk3
      obtain ⟨hc1, hc2⟩ := abs_le.1 hc
      norm_num at hc1 hc2 hk1 hk2
      rcases Nat.lt_or_ge k k' with hlt | hge
      · have : (k : ℝ) + 1 ≤ k' := by exact_mod_cast hlt
        linarith
      · have : (k' : ℝ) ≤ k := by exact_mod_cast hge
        linarith

/-- What the Watson-Williams test computes from groups of sizes `n_i` and resultant lengths `R_i`, `R`
being the length of the pooled resultant. -/
noncomputable def wwStatistic (gs : List (List ℝ)) : ℝ :=
  let N : ℝ := gs.flatten.length
  let k : ℝ := gs.length
  let sumR := (gs.map fun g => ‖resultant g‖).sum
  let kappa := circKappa (sumR / N) none
  (if kappa ≤ 0 then 1 else 1 + 3 / (8 * kappa)) * (N - k) * (sumR - ‖resultant gs.flatten‖) / (N - sumR) / (k - 1)

private lemma sum_n {ss : List CSample} (h : ∀ s ∈ ss, s.Valid) :
    (ss.map CSample.n).sum = (ss.map CSample.expand).flatten.length := by
  induction ss with
  | nil => rfl
  | cons s ss ih =>
    simp only [List.map_cons, List.sum_cons, List.flatten_cons, List.length_append]
    rw [ih (fun s hs => h s (by simp [hs])), (h s (by simp)).n_eq]

private lemma sum_R {ss : List CSample} (h : ∀ s ∈ ss, s.Valid) :
    (ss.map CSample.R).sum = ((ss.map CSample.expand).map fun g => ‖resultant g‖).sum := by
  induction ss with
  | nil => rfl
  | cons s ss ih =>
    simp only [List.map_cons, List.sum_cons]
    rw [ih (fun s hs => h s (by simp [hs])), (h s (by simp)).R_eq]

private lemma pooled {ss : List CSample} (h : ∀ s ∈ ss, s.Valid) :
    expand (ss.map CSample.alpha).flatten (ss.map CSample.w).flatten = (ss.map CSample.expand).flatten
      ∧ (ss.map CSample.alpha).flatten.length = (ss.map CSample.w).flatten.length := by
  induction ss with
  | nil => exact ⟨rfl, rfl⟩
  | cons s ss ih =>
    obtain ⟨h1, h2⟩ := ih (fun s hs => h s (by simp [hs]))
    have hl := (h s (by simp)).len
    simp only [List.map_cons, List.flatten_cons, List.length_append, h2, hl, and_true]
    rw [← h1]
    unfold expand
    rw [List.zipWith_append hl.symm, List.flatten_append]
    rfl

private lemma wwOf_eq {ss : List CSample} (h : ∀ s ∈ ss, s.Valid) (sf : ℝ → ℕ → ℕ → ℝ)
    (hk : 2 ≤ ss.length) (hN : ss.length < (ss.map CSample.expand).flatten.length) :
    wwOf ss sf = .ok
      (let gs := ss.map CSample.expand
       let F := if (gs.flatten.length : ℝ) = (gs.map fun g => ‖resultant g‖).sum then none
        else some (wwStatistic gs)
       ⟨F, F.map fun x => sf x (gs.length - 1) (gs.flatten.length - gs.length), gs.length - 1,
        gs.flatten.length - gs.length, gs.length, gs.flatten.length⟩) := by
  unfold wwOf
  rw [if_neg (by omega)]
  simp only
  rw [sum_n h, if_neg (by omega), sum_R h]
  obtain ⟨h1, h2⟩ := pooled h
  have hpos : 0 < (ss.map CSample.expand).flatten.length := by omega
  have hpos' : ((ss.map CSample.expand).flatten.length : ℝ) ≠ 0 := by exact_mod_cast hpos.ne'
  have hsum : (ss.map CSample.w).flatten.sum = (ss.map CSample.expand).flatten.length := by
    rw [← length_expand _ _ h2, h1]
  have hR : circR (ss.map CSample.alpha).flatten
      ((ss.map CSample.w).flatten.map fun k : ℕ => (k : ℝ))
      = some (‖resultant (ss.map CSample.expand).flatten‖ / (ss.map CSample.expand).flatten.length) := by
    rw [circR_eq, if_neg (by rw [sum_map_natCast, hsum]; exact hpos'), moment_weights _ _ h2, h1, hsum]
  rw [hR]
  simp only [Option.bind_some, List.length_map, wwStatistic]
  rw [mul_div_cancel₀ _ hpos']
  unfold pydiv
  by_cases hz : ((ss.map CSample.expand).flatten.length : ℝ)
      - (((ss.map CSample.expand).map fun g => ‖resultant g‖).sum) = 0
  · rw [if_pos hz, if_pos (by linarith)]; rfl
  · rw [if_neg hz, if_neg (by intro h; exact hz (by linarith))]; rfl

/-- The factor is at least 1 for a mean resultant length in `[0, 1]`. -/
private lemma wwFactor_pos (r : ℝ) : 1 ≤ wwFactor r := by
  unfold wwFactor
  simp only
  split_ifs with h
  · exact le_rfl
  · have : 0 < 3 / (8 * circKappa r none) := div_pos (by norm_num) (by linarith)
    linarith

/-- C36. Result of an accepted call: the samples stand for groups `gs` of single observations; `F` is
undefined exactly when every group is completely concentrated (`N = Σ R_i`), and otherwise it is the
Watson-Williams ratio, which is never negative. -/
theorem C36_watson_williams (samples : List (List ℝ × List ℝ)) (sf : ℝ → ℕ → ℕ → ℝ) (res : WWResult)
    (h : watsonWilliams samples sf = .ok res) :
    ∃ gs : List (List ℝ), List.Forall₂ (fun s g => IsExpansion s.1 s.2 g) samples gs ∧
      2 ≤ gs.length ∧ gs.length < gs.flatten.length ∧
      res.k = gs.length ∧ res.N = gs.flatten.length ∧ res.dfBetween = gs.length - 1 ∧
      res.dfWithin = gs.flatten.length - gs.length ∧
      (res.F = none ↔ (gs.flatten.length : ℝ) = (gs.map fun g => ‖resultant g‖).sum) ∧
      ∀ F, res.F = some F → 0 ≤ F ∧ F = wwStatistic gs ∧
        res.pval = some (sf F res.dfBetween res.dfWithin) := by
  unfold watsonWilliams at h
  cases hc : coerceSamples samples with
  | error e => rw [hc] at h; cases h
  | ok ss =>
    rw [hc] at h
    simp only [Except.bind] at h
    obtain ⟨-, hf⟩ := coerceSamples_ok hc
    have hv : ∀ s ∈ ss, s.Valid := fun s hs => by
      obtain ⟨p, -, hp⟩ := forall₂_exists_right hf hs; exact hp.1
    have hk : 2 ≤ ss.length := by
      by_contra hk
      unfold wwOf at h; rw [if_pos (by omega)] at h; cases h
    have hN : ss.length < (ss.map CSample.expand).flatten.length := by
      by_contra hN
      unfold wwOf at h
      rw [if_neg (by omega)] at h
      simp only at h
      rw [sum_n hv, if_pos (by omega)] at h; cases h
    rw [wwOf_eq hv sf hk hN] at h
    simp only [Except.ok.injEq] at h
    set gs := ss.map CSample.expand with hgs
    have hgl : gs.length = ss.length := by simp [hgs]
    refine ⟨gs, ?_, by omega, by omega, ?_⟩
    · rw [hgs, List.forall₂_map_right_iff]
      exact hf.imp fun p s hp => hp.2.2
    have hk' : (2 : ℝ) ≤ gs.length := by rw [hgl]; exact_mod_cast hk
    have hN' : (gs.length : ℝ) < gs.flatten.length := by rw [hgl]; exact_mod_cast hN
    have hle := norm_resultant_flatten_le gs
    have hsum : (gs.map fun g => ‖resultant g‖).sum ≤ gs.flatten.length := by
      clear_value gs
      clear hle hk' hN' hgl hgs h hN
      induction gs with
      | nil => simp
      | cons g gs ih =>
        simp only [List.map_cons, List.sum_cons, List.flatten_cons, List.length_append]
        push_cast
        exact add_le_add (norm_resultant_le g) ih
    have hF : 0 ≤ wwStatistic gs := by
      unfold wwStatistic
      simp only
      apply div_nonneg _ (by linarith)
      apply div_nonneg _ (by linarith)
      apply mul_nonneg (mul_nonneg _ (by linarith)) (by linarith)
      have hpos : 0 < wwFactor ((gs.map fun g => ‖resultant g‖).sum / gs.flatten.length) := by
        linarith [wwFactor_pos ((gs.map fun g => ‖resultant g‖).sum / gs.flatten.length)]
      exact hpos.le
    subst h
    refine ⟨rfl, rfl, rfl, rfl, ?_, ?_⟩
    · by_cases h : (gs.flatten.length : ℝ) = (gs.map fun g => ‖resultant g‖).sum
      · rw [if_pos h]; exact ⟨fun _ => h, fun _ => rfl⟩
      · rw [if_neg h]; exact ⟨fun h' => (by simp at h'), fun h' => absurd h' h⟩
    · intro F hF'
      simp only at hF'
      split_ifs at hF' with h
      simp only [Option.some.injEq] at hF'
      subst hF'
      refine ⟨hF, rfl, ?_⟩
      simp only [if_neg h, Option.map_some]

private lemma ww_plain (gs : List (List ℝ)) (sf : ℝ → ℕ → ℕ → ℝ) :
    watsonWilliams (gs.map plain) sf =
      if gs.length < 2 ∨ (∃ g ∈ gs, g = []) ∨ gs.flatten.length ≤ gs.length then .error .valueError
      else .ok (
       let F := if (gs.flatten.length : ℝ) = (gs.map fun g => ‖resultant g‖).sum then none
        else some (wwStatistic gs)
       ⟨F, F.map fun x => sf x (gs.length - 1) (gs.flatten.length - gs.length), gs.length - 1,
        gs.flatten.length - gs.length, gs.length, gs.flatten.length⟩) := by
  unfold watsonWilliams
  by_cases he : gs = [] ∨ ∃ g ∈ gs, g = []
  · rw [coerceSamples_plain_error he, if_pos]
    · rfl
    · rcases he with h | h
      · left; simp [h]
      · right; left; exact h
  · push Not at he
    rw [coerceSamples_plain he.1 he.2]
    simp only [Except.bind]
    have hv : ∀ s ∈ gs.map plainSample, s.Valid := by
      intro s hs
      obtain ⟨g, hg, rfl⟩ := List.mem_map.1 hs
      exact (coerceSample_ok (coerceSample_plain g (he.2 g hg))).1
    have hexp : (gs.map plainSample).map CSample.expand = gs := by
      rw [List.map_map]
      conv_rhs => rw [← List.map_id gs]
      apply List.map_congr_left
      intro g _
      exact plainSample_expand g
    by_cases hk : gs.length < 2
    · rw [if_pos (Or.inl hk)]
      unfold wwOf
      rw [if_pos (by simpa using hk)]
    · by_cases hN : gs.flatten.length ≤ gs.length
      · rw [if_pos (Or.inr (Or.inr hN))]
        unfold wwOf
        rw [if_neg (by simpa using hk)]
        simp only
        rw [sum_n hv, hexp, if_pos (by simpa using hN)]
      · rw [if_neg]
        · rw [wwOf_eq hv sf (by simp; omega) (by rw [hexp]; simp only [List.length_map]; omega)]
          simp only [hexp]
        · rintro (h | ⟨g, hg, h⟩ | h)
          · exact hk h
          · exact he.2 g hg h
          · exact hN h

/-- C36. Rotating all observations by the same angle (whole turns of single observations allowed)
changes nothing. -/
theorem C36_rotate (gs hs : List (List ℝ)) (t : ℝ) (sf : ℝ → ℕ → ℕ → ℝ)
    (h : List.Forall₂ (List.Forall₂ fun a b => SameDir b (a + t)) gs hs) :
    watsonWilliams (hs.map plain) sf = watsonWilliams (gs.map plain) sf := by
  have hlen : hs.length = gs.length := h.length_eq.symm
  have hfl : List.Forall₂ (fun a b => SameDir b (a + t)) gs.flatten hs.flatten := by
    clear hlen
    induction h with
    | nil => exact .nil
    | cons hab _ ih => simp only [List.flatten_cons]; exact List.rel_append hab ih
  have hN : hs.flatten.length = gs.flatten.length := hfl.length_eq.symm
  have hR : (hs.map fun g => ‖resultant g‖) = gs.map fun g => ‖resultant g‖ := by
    clear hlen hfl hN
    induction h with
    | nil => rfl
    | cons hab _ ih => simp only [List.map_cons, ih, norm_resultant_rotate t hab]
  have he : (∃ g ∈ hs, g = []) ↔ ∃ g ∈ gs, g = [] := by
    constructor
    · rintro ⟨g, hg, rfl⟩
      obtain ⟨a, ha, hab⟩ := forall₂_exists_right h hg
      exact ⟨a, ha, by cases hab; rfl⟩
    · rintro ⟨g, hg, rfl⟩
      obtain ⟨a, ha, hab⟩ := forall₂_exists_left h hg
      exact ⟨a, ha, by cases hab; rfl⟩
  have hF : wwStatistic hs = wwStatistic gs := by
    unfold wwStatistic
    rw [hN, hlen, hR, norm_resultant_rotate t hfl]
  rw [ww_plain, ww_plain, hlen, hN, hR, hF]
  simp only [he]

/-- C36. The order of the groups does not matter, nor does the order of observations in a group. -/
theorem C36_perm (gs hs : List (List ℝ)) (sf : ℝ → ℕ → ℕ → ℝ) (h : gs.Perm hs) :
    watsonWilliams (hs.map plain) sf = watsonWilliams (gs.map plain) sf := by
  have hlen : hs.length = gs.length := h.length_eq.symm
  have hfl : hs.flatten.Perm gs.flatten := h.symm.flatten
  have hR : (hs.map fun g => ‖resultant g‖).sum = (gs.map fun g => ‖resultant g‖).sum :=
    (h.symm.map _).sum_eq
  have he : (∃ g ∈ hs, g = []) ↔ ∃ g ∈ gs, g = [] := by simp [h.mem_iff]
  have hF : wwStatistic hs = wwStatistic gs := by
    unfold wwStatistic
    rw [hfl.length_eq, hlen, hR, resultant_perm hfl]
  rw [ww_plain, ww_plain, hlen, hfl.length_eq, hR, hF]
  simp only [he]

/-- C36. Fewer than two samples, an empty sample, or not more observations than samples: refused. -/
theorem C36_refused (gs : List (List ℝ)) (sf : ℝ → ℕ → ℕ → ℝ) :
    watsonWilliams (gs.map plain) sf = .error .valueError ↔
      gs.length < 2 ∨ (∃ g ∈ gs, g = []) ∨ gs.flatten.length ≤ gs.length := by
  rw [ww_plain]
  split_ifs with h
  · exact ⟨fun _ => h, fun _ => rfl⟩
  · exact ⟨fun h' => (by cases h'), fun h' => absurd h' h⟩

/-- Two groups of two: accepted. -/
example : ∃ res, watsonWilliams ([[0, 1], [2, 3]].map plain) (fun _ _ _ => 0) = .ok res := by
  rw [ww_plain, if_neg]
  · exact ⟨_, rfl⟩
  · simp

end Verif.Props
