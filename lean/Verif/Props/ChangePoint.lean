import Verif.Props.Concentration
import Verif.Lemmas.Lists

/-!
# C47: change-point test
-/

set_option autoImplicit false

namespace Verif.Props

open Real Verif Verif.Spec

/-- What is gained in resultant length by splitting the sequence after `k` observations. -/
noncomputable def splitGain (l : List ℝ) (k : ℕ) : ℝ :=
  ‖resultant (l.take k)‖ + ‖resultant (l.drop k)‖ - ‖resultant l‖

/-- Mean resultant length. -/
noncomputable def meanLen (l : List ℝ) : ℝ := ‖resultant l‖ / l.length

private lemma estRho_eq (l : List ℝ) : estRho l = meanLen l := by
  unfold estRho meanLen resultant
  simp only [mul_comm Complex.I]

private lemma estRho_mul (l : List ℝ) (h : l ≠ []) : estRho l * l.length = ‖resultant l‖ := by
  have : (l.length : ℝ) ≠ 0 := by
    have := List.length_pos_iff.2 h
    positivity
  rw [estRho_eq, meanLen, div_mul_cancel₀ _ this]

private lemma splitGain_nonneg (l : List ℝ) (k : ℕ) : 0 ≤ splitGain l k := by
  unfold splitGain
  have h : resultant l = resultant (l.take k) + resultant (l.drop k) := by
    rw [← resultant_append, List.take_append_drop]
  rw [h]
  linarith [norm_add_le (resultant (l.take k)) (resultant (l.drop k))]

private lemma splitGain_all (l : List ℝ) : splitGain l l.length = 0 := by
  unfold splitGain
  simp [resultant]

private lemma cpRdiff_eq (l : List ℝ) (hl : l ≠ []) :
    cpRdiff l = (List.range l.length).map fun i : ℕ => splitGain l (i + 1) := by
  obtain ⟨m, hm⟩ : ∃ m, l.length = m + 1 := ⟨l.length - 1, by have := List.length_pos_iff.2 hl; omega⟩
  unfold cpRdiff
  simp only
  rw [hm, List.range_succ, List.map_append, Nat.add_sub_cancel]
  congr 1
  · refine List.map_congr_left fun i hi => ?_
    have hi := List.mem_range.1 hi
    have h1 : (l.take (i + 1)).length = i + 1 := by rw [List.length_take]; omega
    have h2 : (l.drop (i + 1)).length = m + 1 - (i + 1) := by rw [List.length_drop, hm]
    have e1 := estRho_mul (l.take (i + 1)) (by intro h; rw [h] at h1; simp at h1)
    have e2 := estRho_mul (l.drop (i + 1)) (by intro h; rw [h] at h2; simp at h2; omega)
    have e3 := estRho_mul l hl
    rw [h1] at e1
    rw [h2] at e2
    rw [hm] at e3
    rw [e1, e2, e3]; rfl
  · have : splitGain l (m + 1) = 0 := by rw [← hm]; exact splitGain_all l
    simp [this]

private lemma argmax_spec {v : List ℝ} {m : ℝ} (h : maxL v = some m) :
    ∃ hlt : argmaxL v < v.length, v[argmaxL v] = m ∧
      (∀ j (hj : j < v.length), v[j] ≤ m) ∧ ∀ j (hj : j < argmaxL v), v[j]'(by omega) < m := by
  obtain ⟨hm, hmax⟩ := maxL_some h
  have hlt : argmaxL v < v.length := by
    unfold argmaxL; rw [h]; exact List.idxOf_lt_length_iff.2 hm
  have hget : v[argmaxL v] = m := by
    have : ∀ i (hi : i < v.length), i = v.idxOf m → v[i] = m := by
      rintro i hi rfl; exact List.getElem_idxOf hi
    exact this _ hlt (by unfold argmaxL; rw [h])
  refine ⟨hlt, hget, fun j hj => hmax _ (List.getElem_mem hj), fun j hj => ?_⟩
  refine lt_of_le_of_ne (hmax _ (List.getElem_mem _)) fun he => ?_
  have : argmaxL v = v.idxOf m := by unfold argmaxL; rw [h]
  rw [this] at hj
  have := List.not_of_lt_findIdx hj
  rw [he] at this
  simp at this

private lemma mean_le_max {v : List ℝ} {m x : ℝ} (h : maxL v = some m) (hx : mean v = some x) : x ≤ m := by
  obtain ⟨hm, hmax⟩ := maxL_some h
  have hne : v ≠ [] := by rintro rfl; simp at hm
  have hpos : (0 : ℝ) < v.length := by exact_mod_cast List.length_pos_iff.2 hne
  unfold mean pydiv at hx
  rw [if_neg hpos.ne'] at hx
  cases hx
  rw [div_le_iff₀ hpos]
  have := List.sum_le_card_nsmul v m hmax
  rw [nsmul_eq_mul] at this
  linarith

private lemma changePoint_unfold {l : List ℝ} (h : 4 ≤ l.length) (logI0 : ℝ → ℝ) :
    ∃ rmax rave, maxL (cpRdiff l) = some rmax ∧ mean (cpRdiff l) = some rave ∧
      changePoint l logI0 = .ok ⟨l.length, estRho l, rmax, argmaxL (cpRdiff l), rave,
        (cpT (cpV logI0 l)).1, (cpT (cpV logI0 l)).2.1, (cpT (cpV logI0 l)).2.2⟩ := by
  have hl : l ≠ [] := by rintro rfl; simp at h
  have hlen : (cpRdiff l).length = l.length := by rw [cpRdiff_eq l hl]; simp
  have hne : cpRdiff l ≠ [] := by intro hc; rw [hc] at hlen; simp at hlen; omega
  obtain ⟨rmax, hmax, -, -⟩ := maxL_exists hne
  have hmean : mean (cpRdiff l) = some ((cpRdiff l).sum / (cpRdiff l).length) := by
    unfold mean pydiv
    rw [if_neg]
    rw [hlen]
    have : 0 < l.length := by omega
    positivity
  refine ⟨rmax, _, hmax, hmean, ?_⟩
  unfold changePoint
  rw [if_neg (by omega)]
  simp only [hmax, hmean]

/-- The scan over splits: `rmax` is the largest gain in resultant length over all splits after
`k = 1, …, n` observations, attained first at `k = k_r + 1`; `rave` is the average gain; gains are
never negative. -/
theorem C47_change_point (l : List ℝ) (logI0 : ℝ → ℝ) (h : 4 ≤ l.length) :
    ∃ r, changePoint l logI0 = .ok r ∧ r.n = l.length ∧ r.rho = meanLen l ∧
      r.kR < l.length ∧ r.rmax = splitGain l (r.kR + 1) ∧
      (∀ k, 1 ≤ k → k ≤ l.length → splitGain l k ≤ r.rmax) ∧
      (∀ k, 1 ≤ k → k ≤ r.kR → splitGain l k < r.rmax) ∧
      r.rave = ((List.range l.length).map fun i : ℕ => splitGain l (i + 1)).sum / l.length ∧
      0 ≤ r.rave ∧ r.rave ≤ r.rmax := by
  have hl : l ≠ [] := by rintro rfl; simp at h
  obtain ⟨rmax, rave, hmax, hmean, hok⟩ := changePoint_unfold h logI0
  obtain ⟨hlt, hget, hall, hfirst⟩ := argmax_spec hmax
  have hle := mean_le_max hmax hmean
  refine ⟨_, hok, rfl, estRho_eq l, ?_, ?_, ?_, ?_, ?_, ?_, hle⟩
  · simpa [cpRdiff_eq l hl] using hlt
  · have : (cpRdiff l)[argmaxL (cpRdiff l)] = splitGain l (argmaxL (cpRdiff l) + 1) := by
      simp [cpRdiff_eq l hl]
    rw [← this, hget]
  · intro k h1 h2
    have := hall (k - 1) (by rw [cpRdiff_eq l hl]; simp; omega)
    simp only [cpRdiff_eq l hl, List.getElem_map, List.getElem_range, Nat.sub_add_cancel h1] at this
    exact this
  · intro k h1 h2
    simp only at h2
    have := hfirst (k - 1) (by omega)
    simp only [cpRdiff_eq l hl, List.getElem_map, List.getElem_range, Nat.sub_add_cancel h1] at this
    exact this
  · unfold mean pydiv at hmean
    split_ifs at hmean
    cases hmean
    rw [cpRdiff_eq l hl]; simp
  · unfold mean pydiv at hmean
    split_ifs at hmean
    cases hmean
    apply div_nonneg _ (by positivity)
    apply List.sum_nonneg
    intro x hx
    rw [cpRdiff_eq l hl] at hx
    obtain ⟨i, -, rfl⟩ := List.mem_map.1 hx
    exact splitGain_nonneg l _

/-- The test is refused exactly for fewer than four observations. -/
theorem C47_refused (l : List ℝ) (logI0 : ℝ → ℝ) :
    changePoint l logI0 = .error .valueError ↔ l.length < 4 := by
  constructor
  · intro h
    by_contra hc
    obtain ⟨r, hr, _⟩ := C47_change_point l logI0 (by omega)
    rw [hr] at h; cases h
  · intro h
    unfold changePoint
    rw [if_pos h]

/-- Turning the whole sequence changes nothing. -/
theorem C47_rotate (l l' : List ℝ) (t : ℝ) (logI0 : ℝ → ℝ)
    (h : List.Forall₂ (fun a b => SameDir b (a + t)) l l') :
    changePoint l' logI0 = changePoint l logI0 := by
  have hr : ∀ {a b : List ℝ}, List.Forall₂ (fun a b => SameDir b (a + t)) a b → estRho b = estRho a := by
    intro a b hab
    rw [estRho_eq, estRho_eq, meanLen, meanLen, norm_resultant_rotate t hab, hab.length_eq]
  have htake : ∀ k, estRho (l'.take k) = estRho (l.take k) := fun k => hr (List.forall₂_take k h)
  have hdrop : ∀ k, estRho (l'.drop k) = estRho (l.drop k) := fun k => hr (List.forall₂_drop k h)
  have h1 : cpRdiff l' = cpRdiff l := by
    unfold cpRdiff
    simp only [htake, hdrop, hr h, h.length_eq]
  have h2 : cpV logI0 l' = cpV logI0 l := by
    unfold cpV
    simp only [htake, hdrop, h.length_eq]
  unfold changePoint
  simp only [h1, h2, hr h, h.length_eq]

/-- Reversing the sequence changes neither the largest nor the average gain. -/
theorem C47_reverse (l : List ℝ) (logI0 : ℝ → ℝ) (r r' : ChangePointResult)
    (h : changePoint l logI0 = .ok r) (h' : changePoint l.reverse logI0 = .ok r') :
    r'.rho = r.rho ∧ r'.rmax = r.rmax ∧ r'.rave = r.rave := by
  have hn : 4 ≤ l.length := by
    by_contra hc
    rw [(C47_refused l logI0).2 (by omega)] at h; cases h
  have hres : ∀ a : List ℝ, resultant a.reverse = resultant a := fun a => resultant_perm a.reverse_perm
  have hg : ∀ k, k ≤ l.length → splitGain l.reverse k = splitGain l (l.length - k) := by
    intro k hk
    unfold splitGain
    rw [List.take_reverse, List.drop_reverse, hres, hres, hres]
    ring
  have hg0 : splitGain l 0 = 0 := by unfold splitGain; simp [resultant]
  have hgn := splitGain_all l
  obtain ⟨q, e, n1, rho1, k1, m1, max1, -, ave1, a0, -⟩ := C47_change_point l logI0 hn
  obtain ⟨q', e', n2, rho2, k2, m2, max2, -, ave2, b0, ab⟩ :=
    C47_change_point l.reverse logI0 (by simpa using hn)
  rw [h] at e; cases e
  rw [h'] at e'; cases e'
  rw [List.length_reverse] at k2 max2 ave2
  have hpos : 0 ≤ r.rmax := by rw [m1]; exact splitGain_nonneg _ _
  have hpos' : 0 ≤ r'.rmax := by rw [m2]; exact splitGain_nonneg _ _
  refine ⟨by rw [rho1, rho2, meanLen, meanLen, hres, List.length_reverse], le_antisymm ?_ ?_, ?_⟩
  · rw [m2, hg _ (by omega)]
    by_cases hk : l.length - (r'.kR + 1) = 0
    · rw [hk, hg0]; exact hpos
    · exact max1 _ (by omega) (by omega)
  · rw [m1]
    by_cases hk : r.kR + 1 = l.length
    · rw [hk, hgn]; exact hpos'
    · have := max2 (l.length - (r.kR + 1)) (by omega) (by omega)
      rwa [hg _ (by omega), Nat.sub_sub_self (by omega)] at this
  · rw [ave1, ave2]
    congr 1
    obtain ⟨m, hm⟩ : ∃ m, l.length = m + 1 := ⟨l.length - 1, by omega⟩
    have s1 : ((List.range l.length).map fun i : ℕ => splitGain l (i + 1)).sum
        = ((List.range m).map fun i : ℕ => splitGain l (i + 1)).sum := by
      rw [hm, List.range_succ, List.map_append, List.sum_append]
      simp [← hm, hgn]
    have s2 : ((List.range l.length).map fun i : ℕ => splitGain l.reverse (i + 1)).sum
        = ((List.range m).map fun i : ℕ => splitGain l.reverse (i + 1)).sum := by
      rw [hm, List.range_succ, List.map_append, List.sum_append]
      simp [← hm, hg l.length le_rfl, hg0]
    rw [s1, s2]
    have : ((List.range m).map fun i : ℕ => splitGain l.reverse (i + 1))
        = ((List.range m).map fun i : ℕ => splitGain l (i + 1)).reverse := by
      apply List.ext_getElem (by simp)
      intro i h1 h2
      simp only [List.length_map, List.length_range] at h1
      simp only [List.getElem_map, List.getElem_range, List.getElem_reverse, List.length_map,
        List.length_range]
      rw [hg _ (by omega)]
      congr 1
      omega
    rw [this, List.sum_reverse]

/-- Without any change of direction there is no gain. -/
theorem C47_one_direction (l : List ℝ) (logI0 : ℝ → ℝ) (r : ChangePointResult)
    (h : changePoint l logI0 = .ok r) (h1 : OneDirection l) : r.rmax = 0 ∧ r.rave = 0 ∧ r.kR = 0 := by
  have hn : 4 ≤ l.length := by
    by_contra hc
    rw [(C47_refused l logI0).2 (by omega)] at h; cases h
  obtain ⟨q, e, -, -, k1, m1, max1, first, ave, -, -⟩ := C47_change_point l logI0 hn
  rw [h] at e; cases e
  have hz : ∀ k, k ≤ l.length → splitGain l k = 0 := by
    intro k hk
    obtain ⟨m, hm⟩ := h1
    unfold splitGain
    rw [(norm_resultant_eq_length_iff l).2 ⟨m, hm⟩,
      (norm_resultant_eq_length_iff _).2 ⟨m, fun x hx => hm x (List.mem_of_mem_take hx)⟩,
      (norm_resultant_eq_length_iff _).2 ⟨m, fun x hx => hm x (List.mem_of_mem_drop hx)⟩,
      List.length_take, List.length_drop, min_eq_left hk, Nat.cast_sub hk]
    ring
  have hmax : r.rmax = 0 := by rw [m1, hz _ (by omega)]
  refine ⟨hmax, ?_, ?_⟩
  · rw [ave]
    have : ((List.range l.length).map fun i : ℕ => splitGain l (i + 1))
        = (List.range l.length).map fun _ => (0 : ℝ) :=
      List.map_congr_left fun i hi => hz _ (by have := List.mem_range.1 hi; omega)
    rw [this]; simp
  · by_contra hc
    have := first 1 le_rfl (by omega)
    rw [hmax, hz 1 (by omega)] at this
    exact lt_irrefl _ this

/-! ## The likelihood scan -/

/-- The value of `A1inv` at a mean resultant length below 1 (see C05), and the profile log likelihood
per observation built from it. -/
noncomputable def profile (logI0 : ℝ → ℝ) (x : ℝ) : ℝ :=
  x * (a1inv x).getD 0 - logI0 ((a1inv x).getD 0)

/-- Log likelihood per observation of a split after `k` observations. -/
noncomputable def splitLik (logI0 : ℝ → ℝ) (l : List ℝ) (k : ℕ) : ℝ :=
  (k : ℝ) / l.length * profile logI0 (meanLen (l.take k))
    + ((l.length - k : ℕ) : ℝ) / l.length * profile logI0 (meanLen (l.drop k))

private lemma a1inv_isSome {x : ℝ} (h1 : x < 1) : ∃ y, a1inv x = some y := by
  unfold a1inv
  split_ifs with h2 h3
  · exact ⟨_, rfl⟩
  · exact ⟨_, rfl⟩
  · unfold pydiv
    rw [if_neg]
    · exact ⟨_, rfl⟩
    · have : x ^ 3 - 4 * x ^ 2 + 3 * x = x * (1 - x) * (3 - x) := by ring
      rw [this]
      have : 0.85 ≤ x := not_lt.1 h3
      have : 0 < x * (1 - x) * (3 - x) := by
        apply mul_pos (mul_pos _ _) <;> norm_num at * <;> linarith
      exact this.ne'

private lemma a1inv_one : a1inv 1 = none := by
  unfold a1inv pydiv; norm_num

private lemma meanLen_lt {l : List ℝ} (hl : l ≠ []) (h : ¬ OneDirection l) : 0 ≤ meanLen l ∧ meanLen l < 1 := by
  have hpos : (0 : ℝ) < l.length := by exact_mod_cast List.length_pos_iff.2 hl
  exact ⟨by unfold meanLen; positivity, (div_lt_one hpos).2 (norm_resultant_lt_length h)⟩

private lemma cpPhi_some (logI0 : ℝ → ℝ) {l : List ℝ} (hl : l ≠ []) (h : ¬ OneDirection l) :
    cpPhi logI0 (meanLen l) = some (profile logI0 (meanLen l)) := by
  obtain ⟨y, hy⟩ := a1inv_isSome (meanLen_lt hl h).2
  unfold cpPhi profile
  rw [hy]; rfl

private lemma cpPhi_none (logI0 : ℝ → ℝ) {l : List ℝ} (hl : l ≠ []) (h : OneDirection l) :
    cpPhi logI0 (meanLen l) = none := by
  have hpos : (0 : ℝ) < l.length := by exact_mod_cast List.length_pos_iff.2 hl
  have : meanLen l = 1 := by
    unfold meanLen
    rw [(norm_resultant_eq_length_iff l).2 h, div_self hpos.ne']
  unfold cpPhi
  rw [this, a1inv_one]; rfl

private lemma cpV_entry (logI0 : ℝ → ℝ) (l : List ℝ) : cpV logI0 l = (List.range (l.length - 3)).map fun i : ℕ =>
    (cpPhi logI0 (meanLen (l.take (i + 2)))).bind fun a => (cpPhi logI0 (meanLen (l.drop (i + 2)))).map fun b =>
      ((i + 2 : ℕ) : ℝ) / l.length * a + ((l.length - (i + 2) : ℕ) : ℝ) / l.length * b := by
  unfold cpV
  refine List.map_congr_left fun i hi => ?_
  have hi := List.mem_range.1 hi
  have h1 : ((i + 2 : ℕ) : ℝ) ≠ 0 := by positivity
  have h2 : ((l.length - (i + 2) : ℕ) : ℝ) ≠ 0 := by
    have : 0 < l.length - (i + 2) := by omega
    positivity
  simp only
  rw [mul_div_cancel_right₀ _ h1, mul_div_cancel_right₀ _ h2, estRho_eq, estRho_eq]

/-- When no part of a split after `k = 2, …, n - 2` observations consists of one direction only, `tmax`
is the largest log likelihood over these splits, attained first after `k_t + 1` observations, and `tave`
is the average. -/
theorem C47_likelihood (l : List ℝ) (logI0 : ℝ → ℝ) (h : 4 ≤ l.length)
    (hd : ∀ k, 2 ≤ k → k ≤ l.length - 2 → ¬ OneDirection (l.take k) ∧ ¬ OneDirection (l.drop k)) :
    ∃ r, changePoint l logI0 = .ok r ∧ 2 ≤ r.kT + 1 ∧ r.kT + 1 ≤ l.length - 2 ∧
      r.tmax = some (splitLik logI0 l (r.kT + 1)) ∧
      (∀ k, 2 ≤ k → k ≤ l.length - 2 → splitLik logI0 l k ≤ splitLik logI0 l (r.kT + 1)) ∧
      (∀ k, 2 ≤ k → k ≤ r.kT → splitLik logI0 l k < splitLik logI0 l (r.kT + 1)) ∧
      r.tave = some (((List.range (l.length - 3)).map fun i : ℕ => splitLik logI0 l (i + 2)).sum
        / ((l.length : ℝ) - 3)) := by
  obtain ⟨rmax, rave, -, -, hok⟩ := changePoint_unfold h logI0
  set v := (List.range (l.length - 3)).map fun i : ℕ => splitLik logI0 l (i + 2) with hv
  have hV : cpV logI0 l = v.map some := by
    rw [cpV_entry, hv, List.map_map]
    refine List.map_congr_left fun i hi => ?_
    have hi := List.mem_range.1 hi
    obtain ⟨ha, hb⟩ := hd (i + 2) (by omega) (by omega)
    have n1 : l.take (i + 2) ≠ [] := by
      intro hc; have := congrArg List.length hc; rw [List.length_take, List.length_nil] at this; omega
    have n2 : l.drop (i + 2) ≠ [] := by
      intro hc; have := congrArg List.length hc; rw [List.length_drop, List.length_nil] at this; omega
    rw [cpPhi_some logI0 n1 ha, cpPhi_some logI0 n2 hb]
    rfl
  have hmap : ((v.map some).mapM id : Option (List ℝ)) = some v := by
    rw [List.mapM_map, optMapM_some (g := id) (by intro x _; rfl), List.map_id]
  have hne : v ≠ [] := by
    intro hc; have := congrArg List.length hc; rw [hv] at this; simp at this; omega
  have hlen : v.length = l.length - 3 := by rw [hv]; simp
  obtain ⟨m, hm, -, -⟩ := maxL_exists hne
  obtain ⟨hlt, hget, hall, hfirst⟩ := argmax_spec hm
  have hT : cpT (cpV logI0 l) = (some m, argmaxL v + 1, mean v) := by
    unfold cpT; rw [hV, hmap]; simp only [hm]
  have hgetv : ∀ j (hj : j < v.length), v[j] = splitLik logI0 l (j + 2) := by
    intro j hj; simp [hv]
  have hm' : m = splitLik logI0 l (argmaxL v + 2) := by rw [← hget, hgetv]
  refine ⟨_, hok, ?_, ?_, ?_, ?_, ?_, ?_⟩ <;> simp only [hT]
  · omega
  · omega
  · rw [hm']
  · intro k h1 h2
    have := hall (k - 2) (by omega)
    rw [hgetv, Nat.sub_add_cancel h1, hm'] at this
    exact this
  · intro k h1 h2
    have := hfirst (k - 2) (by omega)
    rw [hgetv, Nat.sub_add_cancel h1, hm'] at this
    exact this
  · have hpos : (v.length : ℝ) ≠ 0 := by
      have : 0 < v.length := List.length_pos_iff.2 hne
      positivity
    unfold mean pydiv
    rw [if_neg hpos, hlen, Nat.cast_sub (by omega)]
    norm_num

/-- But the likelihood scan breaks down, for sequences of any length, as soon as the first two
observations (or the last two) are the same direction: `tmax` and `tave` are not finite. -/
theorem C47_likelihood_nan (l : List ℝ) (logI0 : ℝ → ℝ) (h : 4 ≤ l.length)
    (hd : ∃ k, 2 ≤ k ∧ k ≤ l.length - 2 ∧ (OneDirection (l.take k) ∨ OneDirection (l.drop k))) :
    ∃ r, changePoint l logI0 = .ok r ∧ r.tmax = none ∧ r.tave = none := by
  obtain ⟨rmax, rave, -, -, hok⟩ := changePoint_unfold h logI0
  obtain ⟨k, h1, h2, h3⟩ := hd
  have hmem : (none : Option ℝ) ∈ cpV logI0 l := by
    rw [cpV_entry]
    refine List.mem_map.2 ⟨k - 2, List.mem_range.2 (by omega), ?_⟩
    have n1 : l.take k ≠ [] := by
      intro hc; have := congrArg List.length hc; rw [List.length_take, List.length_nil] at this; omega
    have n2 : l.drop k ≠ [] := by
      intro hc; have := congrArg List.length hc; rw [List.length_drop, List.length_nil] at this; omega
    rw [Nat.sub_add_cancel h1]
    rcases h3 with h3 | h3
    · rw [cpPhi_none logI0 n1 h3]; rfl
    · rw [cpPhi_none logI0 n2 h3]; cases cpPhi logI0 (meanLen (l.take k)) <;> rfl
  have hT : ((cpV logI0 l).mapM id : Option (List ℝ)) = none := optMapM_none hmem rfl
  refine ⟨_, hok, ?_, ?_⟩ <;> simp only [cpT, hT]

/-- Sequences as in `C47_likelihood_nan`. -/
example : ∃ k, 2 ≤ k ∧ k ≤ [1, 1, 2, 3, 4].length - 2 ∧
    (OneDirection (([1, 1, 2, 3, 4] : List ℝ).take k) ∨ OneDirection (([1, 1, 2, 3, 4] : List ℝ).drop k)) := by
  refine ⟨2, le_rfl, by simp, Or.inl ⟨1, fun x hx => ?_⟩⟩
  have : x = 1 := by simpa using hx
  rw [this]
  exact ⟨0, by simp⟩

private lemma not_one_of {l : List ℝ} {a b : ℝ} (ha : a ∈ l) (hb : b ∈ l) (h : cos a ≠ cos b) : ¬ OneDirection l := by
  rintro ⟨m, hm⟩
  obtain ⟨i, hi⟩ := hm a ha
  obtain ⟨j, hj⟩ := hm b hb
  exact h (by rw [hi, hj, cos_add_int_mul_two_pi, cos_add_int_mul_two_pi])

/-- The hypotheses of `C47_likelihood` can be met. -/
example : ∀ k, 2 ≤ k → k ≤ [0, π / 3, 0, π / 3].length - 2 →
    ¬ OneDirection ([0, π / 3, 0, π / 3].take k) ∧ ¬ OneDirection ([0, π / 3, 0, π / 3].drop k) := by
  intro k h1 h2
  simp only [List.length_cons, List.length_nil] at h2
  have hk : k = 2 := by omega
  subst hk
  have : cos 0 ≠ cos (π / 3) := by rw [cos_zero, cos_pi_div_three]; norm_num
  exact ⟨not_one_of (a := 0) (b := π / 3) (by simp) (by simp) this,
    not_one_of (a := 0) (b := π / 3) (by simp) (by simp) this⟩

end Verif.Props
