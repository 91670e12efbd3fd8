import Verif.Model.HypSym
import Verif.Spec.Rank
import Verif.Lemmas.Circle

/-!
# Helper lemmas: signed rank sums
-/

set_option autoImplicit false

namespace Verif

open Real Verif.Spec

lemma zip_map_map {α β γ : Type*} (l : List α) (f : α → β) (g : α × β → γ) :
    ((l.zip (l.map f)).map g) = l.map fun x => g (x, f x) := by
  induction l with
  | nil => rfl
  | cons x l ih => simp [ih]

lemma sum_sum_comm {α β : Type*} (a : List α) (b : List β) (f : α → β → ℝ) :
    (a.map fun x => (b.map fun y => f x y).sum).sum
      = (b.map fun y => (a.map fun x => f x y).sum).sum := by
  induction a with
  | nil => simp
  | cons x a ih => simp only [List.map_cons, List.sum_cons, ih, List.sum_map_add]

lemma rank_avg_term (l : List ℝ) (s : ℝ) :
    ((l.countP fun y => decide (y < s) : ℕ) : ℝ) + ((l.count s : ℝ) + 1) / 2
      = (l.map fun t => halfStep (s - t)).sum + 1 / 2 := by
  induction l with
  | nil => simp
  | cons t l ih =>
    simp only [List.countP_cons, List.count_cons, List.map_cons, List.sum_cons]
    push_cast
    have hs : halfStep (s - t) = (if t < s then (1 : ℝ) else if t = s then 1 / 2 else 0) := by
      unfold halfStep
      rcases lt_trichotomy t s with h | h | h
      · rw [if_pos (sub_pos.2 h), if_pos h]
      · subst h; simp
      · rw [if_neg (by linarith), if_neg (by linarith), if_neg (by linarith), if_neg (by linarith)]
    rw [hs]
    rcases lt_trichotomy t s with h | h | h
    · rw [if_pos h]
      simp only [h, h.ne, beq_iff_eq, decide_true, if_true, if_false]; push_cast; linarith
    · subst h; simp only [lt_irrefl, beq_self_eq_true, decide_false, if_true, if_false]
      simp only [Bool.false_eq_true, if_false]; push_cast; linarith
    · rw [if_neg (not_lt.2 h.le), if_neg h.ne']
      simp only [not_lt.2 h.le, h.ne', beq_iff_eq, decide_false, if_false, Bool.false_eq_true]
      push_cast; linarith

lemma countLe_eq_add (l : List ℝ) (s : ℝ) :
    countLe l s = (l.countP fun y => decide (y < s)) + l.count s := by
  unfold countLe
  induction l with
  | nil => simp
  | cons t l ih =>
    simp only [List.countP_cons, List.count_cons, ih]
    rcases lt_trichotomy t s with h | h | h
    · simp [h, h.le, h.ne]; omega
    · subst h; simp; omega
    · simp [not_lt.2 h.le, not_le.2 h, h.ne']

lemma rankAvg_eq_midRank (l : List ℝ) : rankAvg l = l.map (midRank l) := by
  unfold rankAvg
  apply List.map_congr_left
  intro x _
  unfold midRank
  rw [countLe_eq_add]
  push_cast
  ring

lemma halfStep_add_neg (z : ℝ) : halfStep z + halfStep (-z) = 1 := by
  unfold halfStep
  rcases lt_trichotomy z 0 with h | h | h
  · rw [if_neg (by linarith), if_neg h.ne, if_pos (by linarith)]; norm_num
  · subst h; norm_num
  · rw [if_pos h, if_neg (by linarith), if_neg (by linarith)]; norm_num

/-- The sign of a sum of two nonzero numbers is the sign of the one with the larger absolute value. -/
lemma halfStep_add (x y : ℝ) (hx : x ≠ 0) (hy : y ≠ 0) :
    halfStep (x + y) = (if 0 < x then halfStep (|x| - |y|) else 0)
      + (if 0 < y then halfStep (|y| - |x|) else 0) := by
  unfold halfStep
  rcases lt_or_gt_of_ne hx with h | h <;> rcases lt_or_gt_of_ne hy with h' | h'
  · rw [if_neg (by linarith), if_neg (by linarith), if_neg (by linarith), if_neg (by linarith)]; simp
  · rw [abs_of_neg h, abs_of_pos h', if_neg (not_lt.2 h.le), if_pos h', zero_add]
    have e : y - -x = x + y := by ring
    rw [e]
  · rw [abs_of_pos h, abs_of_neg h', if_pos h, if_neg (not_lt.2 h'.le), add_zero]
    have e : x - -y = x + y := by ring
    rw [e]
  · rw [abs_of_pos h, abs_of_pos h', if_pos h, if_pos h', if_pos (by linarith)]
    rcases lt_trichotomy x y with g | g | g
    · rw [if_neg (by linarith), if_neg (by linarith), if_pos (by linarith)]; norm_num
    · subst g; norm_num
    · rw [if_pos (by linarith), if_neg (by linarith), if_neg (by linarith)]; norm_num

lemma signedRankSum_eq (p : ℝ → Bool) (d : List ℝ) (nz : List ℝ)
    (hnz : nz = d.filter fun x => decide (x ≠ 0)) :
    signedRankSum p d
      = (nz.map fun x => if p x then (nz.map fun t => halfStep (|x| - |t|)).sum + 1 / 2 else 0).sum := by
  subst hnz
  unfold signedRankSum rankAvg
  dsimp only
  rw [List.map_map, zip_map_map]
  congr 1
  apply List.map_congr_left
  intro x _
  dsimp only [Function.comp]
  rw [rank_avg_term, List.map_map]
  rfl

lemma signedRankSum_pos (d : List ℝ) :
    signedRankSum (fun x => decide (0 < x)) d
      = walshPlus (d.filter fun x => decide (x ≠ 0)) := by
  obtain ⟨nz, hnz⟩ : ∃ nz, nz = d.filter fun x => decide (x ≠ 0) := ⟨_, rfl⟩
  have h0 : ∀ x ∈ nz, x ≠ 0 := by
    intro x hx; subst hnz; simpa using (List.mem_filter.1 hx).2
  rw [signedRankSum_eq _ _ nz hnz, ← hnz]
  unfold walshPlus
  have e1 : (nz.map fun x => (nz.map fun y => halfStep (x + y)).sum).sum
      = (nz.map fun x => (nz.map fun y => if 0 < x then halfStep (|x| - |y|) else 0).sum).sum
        + (nz.map fun x => (nz.map fun y => if 0 < y then halfStep (|y| - |x|) else 0).sum).sum := by
    rw [← List.sum_map_add]
    congr 1
    apply List.map_congr_left
    intro x hx
    rw [← List.sum_map_add]
    congr 1
    apply List.map_congr_left
    intro y hy
    exact halfStep_add x y (h0 x hx) (h0 y hy)
  rw [e1, sum_sum_comm nz nz (fun x y => if 0 < y then halfStep (|y| - |x|) else 0)]
  have e2 : (nz.map fun x => if decide (0 < x) = true then
        (nz.map fun t => halfStep (|x| - |t|)).sum + 1 / 2 else 0).sum
      = (nz.map fun x => (nz.map fun y => if 0 < x then halfStep (|x| - |y|) else 0).sum).sum
        + (nz.map fun x => halfStep (x + x) / 2).sum := by
    rw [← List.sum_map_add]
    congr 1
    apply List.map_congr_left
    intro x hx
    unfold halfStep
    by_cases h : 0 < x
    · simp [h]
    · have : x < 0 := lt_of_le_of_ne (not_lt.1 h) (h0 x hx)
      simp [h, not_lt.2 (show x + x ≤ 0 by linarith), h0 x hx]
  rw [e2]
  have e3 : (nz.map fun x => halfStep (x + x) / 2).sum = (nz.map fun x => halfStep (x + x)).sum / 2 := by
    simp only [div_eq_mul_inv]
    rw [List.sum_map_mul_right]
  rw [e3]
  ring

lemma walshPlus_add_neg (d : List ℝ) :
    walshPlus d + walshPlus (d.map fun x => -x) = d.length * (d.length + 1) / 2 := by
  unfold walshPlus
  have e1 : ((d.map fun x => -x).map fun x => ((d.map fun x => -x).map fun y => halfStep (x + y)).sum).sum
      = (d.map fun x => (d.map fun y => halfStep (-(x + y))).sum).sum := by
    rw [List.map_map]
    congr 1
    apply List.map_congr_left
    intro x _
    dsimp only [Function.comp]
    rw [List.map_map]
    congr 1
    apply List.map_congr_left
    intro y _
    dsimp only [Function.comp]
    congr 1; ring
  have e2 : ((d.map fun x => -x).map fun x => halfStep (x + x)).sum
      = (d.map fun x => halfStep (-(x + x))).sum := by
    rw [List.map_map]
    congr 1
    apply List.map_congr_left
    intro x _
    dsimp only [Function.comp]
    congr 1; ring
  have e3 : (d.map fun x => (d.map fun y => halfStep (x + y)).sum).sum
      + (d.map fun x => (d.map fun y => halfStep (-(x + y))).sum).sum = d.length * d.length := by
    rw [← List.sum_map_add]
    have : ∀ x ∈ d, (d.map fun y => halfStep (x + y)).sum + (d.map fun y => halfStep (-(x + y))).sum
        = (d.length : ℝ) := by
      intro x _
      rw [← List.sum_map_add]
      simp only [halfStep_add_neg]
      simp
    rw [List.map_congr_left this]
    simp
  have e4 : (d.map fun x => halfStep (x + x)).sum + (d.map fun x => halfStep (-(x + x))).sum
      = d.length := by
    rw [← List.sum_map_add]
    simp only [halfStep_add_neg]
    simp
  rw [e1, e2]
  linarith

lemma signedRankSum_neg (d : List ℝ) (nz : List ℝ)
    (hnz : nz = d.filter fun x => decide (x ≠ 0)) :
    signedRankSum (fun x => decide (x < 0)) d = nz.length * (nz.length + 1) / 2 - walshPlus nz := by
  have h1 : (d.map fun x => -x).filter (fun x => decide (x ≠ 0)) = nz.map fun x => -x := by
    subst hnz
    rw [List.filter_map]
    congr 1
    apply List.filter_congr
    intro x _
    simp
  have h2 : signedRankSum (fun x => decide (x < 0)) d
      = signedRankSum (fun x => decide (0 < x)) (d.map fun x => -x) := by
    rw [signedRankSum_eq _ d nz hnz, signedRankSum_eq _ _ _ h1.symm, List.map_map]
    congr 1
    apply List.map_congr_left
    intro x _
    simp only [Function.comp_def, List.map_map, abs_neg, Left.neg_pos_iff]
  rw [h2, signedRankSum_pos, h1]
  linarith [walshPlus_add_neg nz]

/-- `wilcoxon` through the counts of pairs with positive sum. -/
lemma wilcoxon_eq (d nz : List ℝ) (hnz : nz = d.filter fun x => decide (x ≠ 0))
    (pv : ℕ → Multiset ℝ → ℝ → ℝ → Option ℝ) :
    wilcoxon d pv = (some (min (walshPlus nz) (nz.length * (nz.length + 1) / 2 - walshPlus nz)),
      pv (d.length - nz.length)
        (Multiset.ofList ((nz.map fun x => |x|).map (midRank (nz.map fun x => |x|))))
        (walshPlus nz) (nz.length * (nz.length + 1) / 2 - walshPlus nz)) := by
  unfold wilcoxon
  dsimp only
  rw [signedRankSum_neg d nz hnz, signedRankSum_pos, ← hnz, rankAvg_eq_midRank]

lemma walshPlus_perm {a b : List ℝ} (h : a.Perm b) : walshPlus a = walshPlus b := by
  unfold walshPlus
  have e : ∀ x, (a.map fun y => halfStep (x + y)).sum = (b.map fun y => halfStep (x + y)).sum :=
    fun x => (h.map _).sum_eq
  simp only [e]
  rw [(h.map fun x => (b.map fun y => halfStep (x + y)).sum).sum_eq,
    (h.map fun x => halfStep (x + x)).sum_eq]

lemma midRank_perm {a b : List ℝ} (h : a.Perm b) : midRank a = midRank b := by
  funext x
  unfold midRank countLe
  rw [h.countP_eq, h.countP_eq]

lemma wilcoxon_perm {a b : List ℝ} (h : a.Perm b) (pv : ℕ → Multiset ℝ → ℝ → ℝ → Option ℝ) :
    wilcoxon a pv = wilcoxon b pv := by
  have hf := h.filter fun x => decide (x ≠ 0)
  rw [wilcoxon_eq a _ rfl, wilcoxon_eq b _ rfl, walshPlus_perm hf, hf.length_eq, h.length_eq,
    midRank_perm (hf.map fun x => |x|)]
  congr 2
  exact Multiset.coe_eq_coe.2 ((hf.map _).map _)

lemma wilcoxon_neg (d : List ℝ) (pv : ℕ → Multiset ℝ → ℝ → ℝ → Option ℝ)
    (hpv : ∀ z r a b, pv z r a b = pv z r b a) :
    wilcoxon (d.map fun x => -x) pv = wilcoxon d pv := by
  obtain ⟨nz, hnz⟩ : ∃ nz, nz = d.filter fun x => decide (x ≠ 0) := ⟨_, rfl⟩
  have h1 : nz.map (fun x => -x) = (d.map fun x => -x).filter (fun x => decide (x ≠ 0)) := by
    subst hnz
    rw [List.filter_map]
    congr 1
    apply List.filter_congr
    intro x _
    simp
  rw [wilcoxon_eq _ _ h1, wilcoxon_eq d nz hnz]
  have e := walshPlus_add_neg nz
  have e1 : walshPlus (nz.map fun x => -x) = nz.length * (nz.length + 1) / 2 - walshPlus nz := by
    linarith
  have e2 : (nz.map fun x => -x).map (fun x => |x|) = nz.map fun x => |x| := by
    rw [List.map_map]; apply List.map_congr_left; intro x _; simp
  rw [e2, e1]
  simp only [List.length_map]
  rw [show (nz.length : ℝ) * (nz.length + 1) / 2 - (nz.length * (nz.length + 1) / 2 - walshPlus nz)
    = walshPlus nz by ring, min_comm, hpv]

lemma halfStep_nonneg (z : ℝ) : 0 ≤ halfStep z := by
  unfold halfStep; split_ifs <;> norm_num

lemma walshPlus_nonneg (d : List ℝ) : 0 ≤ walshPlus d := by
  unfold walshPlus
  have h1 : 0 ≤ (d.map fun x => (d.map fun y => halfStep (x + y)).sum).sum := by
    apply List.sum_nonneg
    intro z hz
    obtain ⟨s, -, rfl⟩ := List.mem_map.1 hz
    apply List.sum_nonneg
    intro z hz
    obtain ⟨t, -, rfl⟩ := List.mem_map.1 hz
    exact halfStep_nonneg _
  have h2 : 0 ≤ (d.map fun x => halfStep (x + x)).sum := by
    apply List.sum_nonneg
    intro z hz
    obtain ⟨t, -, rfl⟩ := List.mem_map.1 hz
    exact halfStep_nonneg _
  linarith

/-- No pair has positive sum exactly if every entry is negative (no entry being zero). -/
lemma walshPlus_eq_zero (d : List ℝ) (h0 : ∀ x ∈ d, x ≠ 0) :
    walshPlus d = 0 ↔ ∀ x ∈ d, x < 0 := by
  have h1 : 0 ≤ (d.map fun x => (d.map fun y => halfStep (x + y)).sum).sum := by
    apply List.sum_nonneg
    intro z hz
    obtain ⟨s, -, rfl⟩ := List.mem_map.1 hz
    apply List.sum_nonneg
    intro z hz
    obtain ⟨t, -, rfl⟩ := List.mem_map.1 hz
    exact halfStep_nonneg _
  have h2 : ∀ z ∈ (d.map fun x => halfStep (x + x)), 0 ≤ z := by
    intro z hz
    obtain ⟨t, -, rfl⟩ := List.mem_map.1 hz
    exact halfStep_nonneg _
  constructor
  · intro h x hx
    unfold walshPlus at h
    have h3 := List.sum_nonneg h2
    have h4 : (d.map fun x => halfStep (x + x)).sum = 0 := by linarith
    have h5 : halfStep (x + x) ≤ (d.map fun x => halfStep (x + x)).sum :=
      List.single_le_sum h2 _ (List.mem_map.2 ⟨x, hx, rfl⟩)
    by_contra hn
    have hp : 0 < x := lt_of_le_of_ne (not_lt.1 hn) (Ne.symm (h0 x hx))
    unfold halfStep at h5
    rw [if_pos (by linarith)] at h5
    unfold halfStep at h4
    linarith
  · intro h
    have hz : ∀ x ∈ d, ∀ y ∈ d, halfStep (x + y) = 0 := by
      intro x hx y hy
      have := h x hx; have := h y hy
      unfold halfStep
      rw [if_neg (by linarith), if_neg (by linarith)]
    unfold walshPlus
    have e1 : ∀ x ∈ d, (d.map fun y => halfStep (x + y)).sum = 0 := by
      intro x hx
      rw [List.map_congr_left (hz x hx)]; simp
    rw [List.map_congr_left e1, List.map_congr_left (fun x hx => hz x hx x hx)]
    simp

end Verif
