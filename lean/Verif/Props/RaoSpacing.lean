import Verif.Props.WatsonOne
import Verif.Lemmas.Arc
import Verif.Spec.Sample
import Mathlib.Data.List.GetD

/-!
# C43 (Rao's spacing test), C90 (its frequency weights) and the Rao part of C31
-/

namespace Verif.Props

open Real Spec

set_option autoImplicit false

lemma diff_cons_cons (a b : ℝ) (l : List ℝ) : diff (a :: b :: l) = (b - a) :: diff (b :: l) := by
  simp [diff]

lemma diff_append : ∀ (A : List ℝ) (al b0 : ℝ) (B : List ℝ),
    diff ((A ++ [al]) ++ (b0 :: B)) = diff (A ++ [al]) ++ (b0 - al) :: diff (b0 :: B)
  | [], al, b0, B => by simp [diff]
  | [a], al, b0, B => by simp [diff]
  | a :: a' :: A, al, b0, B => by
    have := diff_append (a' :: A) al b0 B
    simp only [List.cons_append, List.append_assoc, diff_cons_cons] at this ⊢
    rw [this]

lemma diff_map_add (c : ℝ) : ∀ (A : List ℝ), diff (A.map (· + c)) = diff A
  | [] => by simp [diff]
  | [a] => by simp [diff]
  | a :: a' :: A => by
    have := diff_map_add c (a' :: A)
    simp only [List.map_cons, diff_cons_cons] at this ⊢
    rw [this]; congr 1; ring

lemma raoSpacings_rot (A B : List ℝ) (t : ℝ) :
    (raoSpacings (B.map (· + (t - 2 * π)) ++ A.map (· + t))).Perm (raoSpacings (A ++ B)) ∨ A ++ B = [] := by
  rcases List.eq_nil_or_concat A with rfl | ⟨A', al, rfl⟩
  · rcases List.eq_nil_or_concat B with rfl | ⟨B', bl, rfl⟩
    · right; rfl
    left
    apply List.Perm.of_eq
    unfold raoSpacings
    simp only [List.map_nil, List.append_nil, List.nil_append]
    rw [diff_map_add]
    congr 2
    cases B' with
    | nil => simp
    | cons b B' => simp [List.getLastD]; ring
  · left
    rcases List.eq_nil_or_concat B with rfl | ⟨B', bl, rfl⟩
    · apply List.Perm.of_eq
      unfold raoSpacings
      simp only [List.map_nil, List.append_nil, List.nil_append]
      rw [diff_map_add]
      congr 2
      cases A' with
      | nil => simp
      | cons b B' => simp [List.getLastD]; ring
    · obtain ⟨b0, Bt, hB⟩ : ∃ b0 Bt, B' ++ [bl] = b0 :: Bt := by
        cases B' with
        | nil => exact ⟨_, _, rfl⟩
        | cons b B' => exact ⟨_, _, rfl⟩
      obtain ⟨a0, At, hA⟩ : ∃ a0 At, A' ++ [al] = a0 :: At := by
        cases A' with
        | nil => exact ⟨_, _, rfl⟩
        | cons b B' => exact ⟨_, _, rfl⟩
      have e1 : raoSpacings ((A' ++ [al]) ++ (B' ++ [bl]))
          = (diff (A' ++ [al]) ++ (b0 - al) :: diff (B' ++ [bl])) ++ [2 * π - bl + a0] := by
        unfold raoSpacings
        have h1 : ((A' ++ [al]) ++ (B' ++ [bl])).getLastD 0 = bl := by
          rw [← List.append_assoc, List.getLastD_eq_getLast?, List.getLast?_concat, Option.getD_some]
        have h2 : ((A' ++ [al]) ++ (B' ++ [bl])).headD 0 = a0 := by rw [hA]; simp
        rw [h1, h2]
        congr 1
        rw [hB, diff_append]
      have e2 : raoSpacings ((B' ++ [bl]).map (· + (t - 2 * π)) ++ (A' ++ [al]).map (· + t))
          = (diff (B' ++ [bl]) ++ (2 * π - bl + a0) :: diff (A' ++ [al])) ++ [b0 - al] := by
        unfold raoSpacings
        have h1 : ((B' ++ [bl]).map (· + (t - 2 * π)) ++ (A' ++ [al]).map (· + t)).getLastD 0 = al + t := by
          rw [List.map_append (l₁ := A'), ← List.append_assoc, List.map_singleton, List.getLastD_eq_getLast?,
            List.getLast?_concat, Option.getD_some]
        have h2 : ((B' ++ [bl]).map (· + (t - 2 * π)) ++ (A' ++ [al]).map (· + t)).headD 0
            = b0 + (t - 2 * π) := by rw [hB]; simp
        rw [h1, h2]
        have h3 : diff ((B' ++ [bl]).map (· + (t - 2 * π)) ++ (A' ++ [al]).map (· + t))
            = diff (B' ++ [bl]) ++ (2 * π - bl + a0) :: diff (A' ++ [al]) := by
          have e := diff_append (B'.map (· + (t - 2 * π))) (bl + (t - 2 * π)) (a0 + t) (At.map (· + t))
          have e3 := diff_map_add t (A' ++ [al])
          have e4 := diff_map_add (t - 2 * π) (B' ++ [bl])
          rw [hA] at e3 ⊢
          simp only [List.map_append, List.map_cons, List.map_nil] at e e3 e4 ⊢
          rw [e, e3, e4]
          congr 2; ring
        rw [h3]
        congr 2; ring
      simp only [List.concat_eq_append] at *
      rw [e1, e2]
      generalize diff (A' ++ [al]) = P
      generalize diff (B' ++ [bl]) = Q
      generalize 2 * π - bl + a0 = g1
      generalize b0 - al = g2
      rw [List.perm_iff_count]
      intro c
      simp only [List.count_append, List.count_cons, List.count_nil]
      omega

/-- Sorting a turned sample. -/
lemma sort_rot {x : List ℝ} (hx : ∀ a ∈ x, 0 ≤ a ∧ a < 2 * π) {t : ℝ} :
    ∃ A B, sortR x = A ++ B ∧
      sortR (x.map (rot t)) = B.map (· + (t - 2 * π)) ++ A.map (· + t) := by
  set s := sortR x with hs
  have hsort : s.Pairwise (· ≤ ·) := sortR_sorted x
  set p : ℝ → Bool := fun a => decide (a < 2 * π - t) with hp
  refine ⟨s.filter p, s.filter (fun a => !p a), ?_, ?_⟩
  · have h1 : (s.filter p ++ s.filter fun a => !p a).Pairwise (· ≤ ·) := by
      rw [List.pairwise_append]
      refine ⟨hsort.filter _, hsort.filter _, fun a ha b hb => ?_⟩
      rw [List.mem_filter] at ha hb
      have h1 := ha.2
      have h2 := hb.2
      simp only [hp, decide_eq_true_eq, Bool.not_eq_true', decide_eq_false_iff_not, not_lt] at h1 h2
      linarith
    rw [← sortR_eq_self h1]
    conv_lhs => rw [← sortR_eq_self hsort]
    exact sortR_eq_of_perm (List.filter_append_perm p s).symm
  · have h1 : ((s.filter fun a => !p a).map (· + (t - 2 * π)) ++ (s.filter p).map (· + t)).Pairwise (· ≤ ·) := by
      rw [List.pairwise_append, List.pairwise_map, List.pairwise_map]
      refine ⟨(hsort.filter _).imp fun h => by linarith, (hsort.filter _).imp fun h => by linarith,
        fun a ha b hb => ?_⟩
      obtain ⟨a', ha', rfl⟩ := List.mem_map.1 ha
      obtain ⟨b', hb', rfl⟩ := List.mem_map.1 hb
      rw [List.mem_filter, hs, mem_sortR] at ha' hb'
      have h1 := hx _ ha'.1
      have h2 := hx _ hb'.1
      linarith
    rw [← sortR_eq_self h1]
    apply sortR_eq_of_perm
    have h2 : (x.map (rot t)).Perm (s.map (rot t)) := ((sortR_perm x).map _).symm
    have h3 : (s.map (rot t)).Perm ((s.filter p ++ s.filter fun a => !p a).map (rot t)) :=
      (List.filter_append_perm p s).symm.map _
    refine h2.trans (h3.trans ?_)
    rw [List.map_append]
    have e1 : (s.filter p).map (rot t) = (s.filter p).map (· + t) :=
      List.map_congr_left fun a ha => by
        rw [List.mem_filter] at ha
        have := ha.2
        simp only [hp, decide_eq_true_eq] at this
        unfold rot; rw [if_pos this]
    have e2 : (s.filter fun a => !p a).map (rot t) = (s.filter fun a => !p a).map (· + (t - 2 * π)) :=
      List.map_congr_left fun a ha => by
        rw [List.mem_filter] at ha
        have := ha.2
        simp only [hp, Bool.not_eq_true', decide_eq_false_iff_not] at this
        unfold rot; rw [if_neg this]; ring
    rw [e1, e2]
    exact List.perm_append_comm

lemma length_raoSpacings {s : List ℝ} (hne : s ≠ []) : (raoSpacings s).length = s.length := by
  have := List.length_pos_iff.2 hne
  unfold raoSpacings
  rw [List.length_append, length_diff]
  simp; omega

lemma sum_raoSpacings {s : List ℝ} (hne : s ≠ []) : (raoSpacings s).sum = 2 * π := by
  cases s with
  | nil => exact absurd rfl hne
  | cons a l =>
    unfold raoSpacings
    rw [List.sum_append, sum_diff]
    have : (a :: l).getLastD 0 = (a :: l).getLast (by simp) := by
      rw [List.getLastD_eq_getLast?, List.getLast?_eq_some_getLast (by simp), Option.getD_some]
    rw [this]; simp

lemma getLastD_mem {s : List ℝ} (hne : s ≠ []) : s.getLastD 0 ∈ s := by
  have : s.getLastD 0 = s.getLast hne := by
    rw [List.getLastD_eq_getLast?, List.getLast?_eq_some_getLast hne, Option.getD_some]
  rw [this]; exact List.getLast_mem hne

lemma raoSpacings_nonneg {s : List ℝ} (hne : s ≠ []) (hs : s.Pairwise (· ≤ ·))
    (h : ∀ a ∈ s, 0 ≤ a ∧ a < 2 * π) : ∀ g ∈ raoSpacings s, 0 ≤ g := by
  intro g hg
  unfold raoSpacings at hg
  rcases List.mem_append.1 hg with hg | hg
  · obtain ⟨A, B, p, x, rfl, rfl⟩ := mem_diff.1 hg
    have := (List.pairwise_cons.1 (List.pairwise_append.1 hs).2.1).1 x (by simp)
    linarith
  · simp only [List.mem_singleton] at hg
    have h1 := h _ (getLastD_mem hne)
    have h2 : 0 ≤ s.headD 0 := by
      cases s with
      | nil => simp
      | cons a l => exact (h a (by simp)).1
    rw [hg]; linarith

lemma raoSpacings_get {s : List ℝ} {i : ℕ} (hi : i < s.length) :
    (raoSpacings s).getD i 0
      = (if i + 1 < s.length then s.getD (i + 1) 0 else s.getD 0 0 + 2 * π) - s.getD i 0 := by
  unfold raoSpacings
  have hl := length_diff s
  split_ifs with h
  · have hd : i < (diff s).length := by omega
    rw [List.getD_eq_getElem?_getD, List.getElem?_append_left hd, ← List.getD_eq_getElem?_getD,
      List.getD_eq_getElem _ _ hd, List.getD_eq_getElem _ _ h, List.getD_eq_getElem _ _ hi]
    simp [diff]
  · have hi' : i = (diff s).length := by omega
    rw [hi', List.getD_eq_getElem?_getD, List.getElem?_append_right le_rfl]
    have hne : s ≠ [] := by rintro rfl; simp at hi
    have h1 : s.getLastD 0 = s.getD (diff s).length 0 := by
      rw [List.getLastD_eq_getLast?, List.getLast?_eq_getElem?, ← List.getD_eq_getElem?_getD, hl]
    have h2 : s.headD 0 = s.getD 0 0 := by
      cases s with
      | nil => simp
      | cons a l => simp
    rw [h1, h2]; simp; ring

/-- `g` lists the arcs between neighbouring observations, walking once around the circle. -/
def IsSpacings (x g : List ℝ) : Prop :=
  ∃ z : List ℝ, z.Perm x ∧ z.Pairwise (· ≤ ·) ∧ g.length = z.length ∧
    ∀ i < z.length,
      g.getD i 0 = (if i + 1 < z.length then z.getD (i + 1) 0 else z.getD 0 0 + 2 * π) - z.getD i 0

lemma rao_fst {x : List ℝ} {B : ℤ} {draws : List (List ℝ)} {U pval : ℝ}
    (h : raoSpacingTest x none B draws = .ok (U, pval)) : x ≠ [] ∧ U = raoU x * (180 / π) := by
  unfold raoSpacingTest raoExpand at h
  split_ifs at h with h0 h1
  simp only [Except.map, Except.ok.injEq, Prod.mk.injEq] at h
  exact ⟨by simpa using h1, h.1.symm⟩

/-- **C43.** For a non-empty sample in `[0, 2π)` the reported statistic is, in degrees, half the sum
of the deviations of the spacings between neighbours from `2π/n`; the spacings are non-negative and
add up to the whole circle. -/
theorem C43_rao_spacing (x : List ℝ) (B : ℤ) (draws : List (List ℝ)) (hB : 1 ≤ B) (hne : x ≠ [])
    (hx : ∀ a ∈ x, 0 ≤ a ∧ a < 2 * π) :
    ∃ U pval g, raoSpacingTest x none B draws = .ok (U, pval) ∧ IsSpacings x g ∧
      (∀ y ∈ g, 0 ≤ y) ∧ g.sum = 2 * π ∧
      U = 180 / π * (1 / 2 * (g.map fun y => |y - 2 * π / x.length|).sum) := by
  have hl : x.length ≠ 0 := by simpa using hne
  have hsne : sortR x ≠ [] := by rw [← List.length_pos_iff, sortR_length]; omega
  refine ⟨raoU x * (180 / π), mcPvalue (draws.map raoU) (raoU x), raoSpacings (sortR x), ?_, ⟨sortR x, sortR_perm x, sortR_sorted x, length_raoSpacings hsne,
    fun i hi => raoSpacings_get hi⟩, raoSpacings_nonneg hsne (sortR_sorted x) (fun a ha => hx a (mem_sortR.1 ha)),
    sum_raoSpacings hsne, ?_⟩
  · unfold raoSpacingTest raoExpand
    rw [if_neg (by omega), if_neg hl]; rfl
  · unfold raoU
    ring

lemma raoU_bounds {x : List ℝ} (hne : x ≠ []) (hx : ∀ a ∈ x, 0 ≤ a ∧ a < 2 * π) :
    0 ≤ raoU x ∧ raoU x ≤ 2 * π * (1 - 1 / x.length) := by
  have hsne : sortR x ≠ [] := by rw [← List.length_pos_iff, sortR_length]; exact List.length_pos_iff.2 hne
  have hn : (0 : ℝ) < x.length := by exact_mod_cast List.length_pos_iff.2 hne
  have hπ := two_pi_pos'
  set g := raoSpacings (sortR x) with hg
  set μ := 2 * π / (x.length : ℝ) with hμ
  have hμ0 : 0 ≤ μ := by positivity
  have h0 : ∀ y ∈ g, 0 ≤ y := raoSpacings_nonneg hsne (sortR_sorted x) (fun a ha => hx a (mem_sortR.1 ha))
  have hsum : g.sum = 2 * π := sum_raoSpacings hsne
  have hlen : (g.length : ℝ) = x.length := by rw [hg, length_raoSpacings hsne, sortR_length]
  have hU : raoU x = 0.5 * (g.map fun y => |y - μ|).sum := rfl
  have hgne : g ≠ [] := by
    intro h
    rw [h] at hsum; simp at hsum
  refine ⟨?_, ?_⟩
  · rw [hU]
    have : 0 ≤ (g.map fun y => |y - μ|).sum :=
      List.sum_nonneg fun y hy => by obtain ⟨a, -, rfl⟩ := List.mem_map.1 hy; positivity
    linarith
  · -- `|y - μ| = y + μ - 2 min y μ`, and some spacing is at least `μ`
    have e1 : (g.map fun y => |y - μ|).sum = g.sum + g.length * μ + (-2) * (g.map fun y => min y μ).sum := by
      have hid : g.sum = (g.map fun y => y).sum := by rw [List.map_id']
      rw [← sum_map_mul', ← sum_map_const' g μ, hid, ← sum_map_add', ← sum_map_add']
      refine sum_map_congr fun y _ => ?_
      rcases le_total y μ with h | h
      · rw [min_eq_left h, abs_of_nonpos (by linarith)]; ring
      · rw [min_eq_right h, abs_of_nonneg (by linarith)]; ring
    have e2 : μ ≤ (g.map fun y => min y μ).sum := by
      have hex : ∃ y ∈ g, μ ≤ y := by
        by_contra hc
        push Not at hc
        have : g.sum < (g.map fun _ => μ).sum := by
          conv_lhs => rw [← List.map_id' g]
          exact List.sum_lt_sum_of_ne_nil hgne _ _ fun y hy => hc y hy
        rw [sum_map_const', hlen, hsum, hμ] at this
        field_simp at this
        exact lt_irrefl _ this
      obtain ⟨y, hy, hyμ⟩ := hex
      have hmem : μ ∈ g.map fun y => min y μ := List.mem_map.2 ⟨y, hy, min_eq_right hyμ⟩
      exact List.single_le_sum (fun z hz => by
        obtain ⟨a, ha, rfl⟩ := List.mem_map.1 hz
        exact le_min (h0 a ha) hμ0) μ hmem
    rw [hU, e1, hsum, hlen]
    have e3 : (x.length : ℝ) * μ = 2 * π := by rw [hμ]; field_simp
    rw [e3]
    have e4 : 2 * π * (1 - 1 / (x.length : ℝ)) = 2 * π - μ := by rw [hμ]; ring
    rw [e4]; linarith

/-- The statistic lies between 0 and `360(1 - 1/n)` degrees. -/
theorem C43_rao_spacing_range (x : List ℝ) (B : ℤ) (draws : List (List ℝ))
    (hx : ∀ a ∈ x, 0 ≤ a ∧ a < 2 * π) (U pval : ℝ) (h : raoSpacingTest x none B draws = .ok (U, pval)) :
    0 ≤ U ∧ U ≤ 360 * (1 - 1 / x.length) := by
  obtain ⟨hne, rfl⟩ := rao_fst h
  obtain ⟨h1, h2⟩ := raoU_bounds hne hx
  have hπ := Real.pi_pos
  refine ⟨by positivity, ?_⟩
  have h3 : 0 ≤ 180 / π := by positivity
  calc raoU x * (180 / π) ≤ 2 * π * (1 - 1 / x.length) * (180 / π) := mul_le_mul_of_nonneg_right h2 h3
    _ = 360 * (1 - 1 / x.length) := by field_simp; ring

lemma sorted_arith (c d : ℝ) (hd : 0 ≤ d) (n : ℕ) :
    ((List.range n).map fun i : ℕ => c + d * i).Pairwise (· ≤ ·) := by
  rw [List.pairwise_map]
  refine List.pairwise_lt_range.imp fun {a b} h => ?_
  have : (a : ℝ) ≤ b := by exact_mod_cast h.le
  nlinarith

/-- The statistic is zero exactly for equally spaced observations. -/
theorem C43_rao_spacing_zero_iff (x : List ℝ) (B : ℤ) (draws : List (List ℝ))
    (hx : ∀ a ∈ x, 0 ≤ a ∧ a < 2 * π) (U pval : ℝ) (h : raoSpacingTest x none B draws = .ok (U, pval)) :
    U = 0 ↔ ∃ c : ℝ, x.Perm ((List.range x.length).map fun i : ℕ => c + 2 * π / x.length * i) := by
  obtain ⟨hne, rfl⟩ := rao_fst h
  have hsne : sortR x ≠ [] := by rw [← List.length_pos_iff, sortR_length]; exact List.length_pos_iff.2 hne
  have hn : 0 < x.length := List.length_pos_iff.2 hne
  have hnR : (0 : ℝ) < x.length := by exact_mod_cast hn
  have hπ := two_pi_pos'
  set μ := 2 * π / (x.length : ℝ) with hμ
  have hμ0 : 0 ≤ μ := by positivity
  have hk : (180 : ℝ) / π ≠ 0 := by positivity
  have hU : raoU x * (180 / π) = 0 ↔ ∀ y ∈ raoSpacings (sortR x), y = μ := by
    rw [mul_eq_zero, or_iff_left hk]
    unfold raoU
    rw [mul_eq_zero, or_iff_right (by norm_num)]
    constructor
    · intro h y hy
      have h1 : |y - μ| ≤ 0 := by
        rw [← h]
        exact List.single_le_sum (fun z hz => by obtain ⟨a, -, rfl⟩ := List.mem_map.1 hz; positivity) _
          (List.mem_map.2 ⟨y, hy, rfl⟩)
      have := abs_nonpos_iff.1 h1
      linarith
    · intro h
      rw [sum_map_congr (g := fun _ => 0) fun y hy => by rw [h y hy]; simp [hμ]]
      simp
  rw [hU]
  have hsl : (sortR x).length = x.length := sortR_length x
  constructor
  · intro h
    refine ⟨(sortR x).getD 0 0, (sortR_perm x).symm.trans (List.Perm.of_eq ?_)⟩
    have key : ∀ i, i < x.length → (sortR x).getD i 0 = (sortR x).getD 0 0 + μ * i := by
      intro i
      induction i with
      | zero => intro _; simp
      | succ i ih =>
        intro hi
        have ih := ih (by omega)
        have hg := raoSpacings_get (s := sortR x) (i := i) (by omega)
        rw [if_pos (by omega)] at hg
        have hmem : (raoSpacings (sortR x)).getD i 0 ∈ raoSpacings (sortR x) := by
          have : i < (raoSpacings (sortR x)).length := by rw [length_raoSpacings hsne]; omega
          rw [List.getD_eq_getElem _ _ this]; exact List.getElem_mem _
        rw [h _ hmem] at hg
        push_cast
        linarith
    apply List.ext_getElem
    · simp [hsl]
    · intro i h1 h2
      have := key i (by omega)
      rw [List.getD_eq_getElem _ _ h1] at this
      rw [this]; simp
  · rintro ⟨c, hc⟩ y hy
    have hs : sortR x = (List.range x.length).map fun i : ℕ => c + μ * i := by
      rw [sortR_eq_of_perm hc]
      exact sortR_eq_self (sorted_arith c μ hμ0 _)
    have hget : ∀ i, i < x.length → (sortR x).getD i 0 = c + μ * i := by
      intro i hi
      rw [hs, List.getD_eq_getElem _ _ (by simpa using hi)]; simp
    obtain ⟨i, hi, rfl⟩ := List.getElem_of_mem hy
    have hi' : i < x.length := by rw [length_raoSpacings hsne] at hi; omega
    rw [← List.getD_eq_getElem _ 0 hi, raoSpacings_get (by omega), hsl]
    split_ifs with hlt
    · rw [hget _ hlt, hget _ hi']; push_cast; ring
    · have : i = x.length - 1 := by omega
      rw [hget _ hn, hget _ hi', this, Nat.cast_sub hn]
      have : μ * x.length = 2 * π := by rw [hμ]; field_simp
      push_cast
      linear_combination (-1 : ℝ) * this

lemma raoU_perm {x y : List ℝ} (h : x.Perm y) : raoU x = raoU y := by
  unfold raoU; rw [sortR_eq_of_perm h, h.length_eq]

/-- The result depends only on which directions were observed: not on their order, and not on the
choice of the zero direction. -/
theorem C43_rao_spacing_rotate (x x' : List ℝ) (t : ℝ) (B : ℤ) (draws : List (List ℝ))
    (hx : ∀ a ∈ x, 0 ≤ a ∧ a < 2 * π) (hr : IsRotated t x x') :
    raoSpacingTest x' none B draws = raoSpacingTest x none B draws := by
  obtain ⟨hs, hp⟩ := isRotated_rot hr hx
  have hlen : x'.length = x.length := by rw [hp.length_eq, List.length_map]
  unfold raoSpacingTest raoExpand
  rw [hlen]
  by_cases hl : x.length = 0
  · simp [hl]
  suffices raoU x' = raoU x by simp only [Except.map, this]
  rw [raoU_perm hp]
  obtain ⟨A, B', h1, h2⟩ := sort_rot hx (t := angmod2pi t)
  unfold raoU
  rw [h1, h2, List.length_map]
  rcases raoSpacings_rot A B' (angmod2pi t) with h | h
  · rw [(h.map _).sum_eq]
  · exfalso
    rw [h] at h1
    have := congrArg List.length h1
    rw [sortR_length] at this
    simp at this; simp [this] at hl

/-- Bad simulation counts and empty samples are refused. -/
theorem C43_rao_spacing_refused (x : List ℝ) (w : Option (List ℝ)) (B : ℤ) (draws : List (List ℝ))
    (h : B ≤ 0 ∨ x = []) : raoSpacingTest x w B draws = .error .valueError := by
  unfold raoSpacingTest
  by_cases hB : B ≤ 0
  · rw [if_pos hB]
  · have hl : x.length = 0 := by
      rcases h with h | h
      · exact absurd h hB
      · simp [h]
    rw [if_neg hB, if_pos hl]

/-- **C31 for Rao's test.** (`Us` are the statistics of the simulated samples, in degrees.) -/
theorem C31_rao_spacing (x : List ℝ) (w : Option (List ℝ)) (B : ℤ) (draws : List (List ℝ))
    (hlen : (draws.length : ℤ) = B) (hd : ∀ u ∈ draws, u ≠ []) (U pval : ℝ)
    (h : raoSpacingTest x w B draws = .ok (U, pval)) :
    ∃ (Us : List ℝ) (k : ℕ),
      List.Forall₂ (fun u v => ∃ q, raoSpacingTest u none 1 [] = .ok (v, q)) draws Us ∧
      1 ≤ k ∧ (k : ℤ) ≤ B + 1 ∧ k = (Us.countP fun v => decide (U ≤ v)) + 1 ∧
      pval = (k : ℝ) / (B + 1) := by
  unfold raoSpacingTest at h
  split_ifs at h with h0 h1
  cases hc : raoExpand x w with
  | error e => rw [hc] at h; cases h
  | ok y =>
    rw [hc] at h
    simp only [Except.map, Except.ok.injEq, Prod.mk.injEq] at h
    obtain ⟨rfl, rfl⟩ := h
    obtain ⟨k, hk1, hk2, hk, he⟩ := mcPvalue_eq (draws.map raoU) (raoU y)
    rw [List.length_map] at hk2
    refine ⟨draws.map fun u => raoU u * (180 / π), k, ?_, hk1, by omega, ?_, ?_⟩
    · rw [List.forall₂_map_right_iff, List.forall₂_same]
      intro u hu
      have hl : u.length ≠ 0 := by simpa using hd u hu
      refine ⟨mcPvalue ([].map raoU) (raoU u), ?_⟩
      unfold raoSpacingTest raoExpand
      rw [if_neg (by norm_num), if_neg hl]; rfl
    · rw [hk, List.countP_map, List.countP_map]
      congr 2
      funext u
      have : (0 : ℝ) < 180 / π := by positivity
      simp only [Function.comp_apply, decide_eq_decide]
      exact (mul_le_mul_iff_left₀ this).symm
    · have : ((draws.length : ℤ) : ℝ) = (B : ℝ) := by rw [hlen]
      rw [he, List.length_map, ← this, Int.cast_natCast]

/-- **C90.** Whole-number frequencies stand for repeated observations: the statistic and p value are
those of the expanded sample (same simulated samples). -/
theorem C90_rao_frequencies (x : List ℝ) (ks : List ℕ) (B : ℤ) (draws : List (List ℝ))
    (hl : ks.length = x.length) (hpos : 0 < ks.sum) :
    raoSpacingTest x (some (ks.map fun k : ℕ => (k : ℝ))) B draws
      = raoSpacingTest (expand x ks) none B draws := by
  have hx : x.length ≠ 0 := by
    intro h; rw [h] at hl
    have : ks = [] := List.length_eq_zero_iff.1 hl
    simp [this] at hpos
  have htr : (ks.map fun k : ℕ => (k : ℝ)).map truncNat = ks := by
    rw [List.map_map]
    conv_rhs => rw [← List.map_id ks]
    refine List.map_congr_left fun k _ => ?_
    simp [truncNat]
  have hne : (expand x ks).length ≠ 0 := by
    unfold expand
    rw [List.length_flatten, List.map_zipWith]
    simp only [List.length_replicate]
    have : ∀ (x : List ℝ) (ks : List ℕ), ks.length = x.length → List.zipWith (fun _ k => k) x ks = ks := by
      intro x
      induction x with
      | nil => intro ks h; simp at h; simp [h]
      | cons a x ih =>
        intro ks h
        cases ks with
        | nil => simp at h
        | cons k ks => simp at h; simp [ih ks h]
    rw [this x ks hl]; omega
  unfold raoSpacingTest
  by_cases hB : B ≤ 0
  · rw [if_pos hB, if_pos hB]
  rw [if_neg hB, if_neg hB, if_neg hx, if_neg hne]
  have : raoExpand x (some (ks.map fun k : ℕ => (k : ℝ))) = .ok (expand x ks) := by
    unfold raoExpand
    simp only
    rw [if_neg, if_neg, if_neg, htr, if_neg (by omega)]
    · rfl
    · simp [hl]
    · rintro ⟨v, hv, hc⟩
      obtain ⟨k, -, rfl⟩ := List.mem_map.1 hv
      apply hc
      have := roundEven_intCast (k : ℤ)
      rw [Int.cast_natCast] at this
      rw [this]
      unfold isclose
      simp only [Int.cast_natCast, sub_self, abs_zero]
      unfold rtolDefault atolDefault
      positivity
    · rintro ⟨v, hv, hc⟩
      obtain ⟨k, -, rfl⟩ := List.mem_map.1 hv
      have : (0 : ℝ) ≤ k := by positivity
      linarith
  rw [this]; rfl

/-- Frequencies that pass the whole-number check are truncated, not rounded: `0.999999` is accepted as
a whole number and then counts as no observation at all. -/
theorem C90_rao_truncates (a b : ℝ) (B : ℤ) (draws : List (List ℝ)) :
    isclose 0.999999 1 rtolDefault atolDefault ∧
    raoSpacingTest [a, b] (some [0.999999, 1]) B draws = raoSpacingTest [b] none B draws := by
  have hcl : isclose 0.999999 1 rtolDefault atolDefault := by
    unfold isclose rtolDefault atolDefault
    rw [abs_of_nonpos (by norm_num)]; norm_num
  refine ⟨hcl, ?_⟩
  unfold raoSpacingTest
  by_cases hB : B ≤ 0
  · rw [if_pos hB, if_pos hB]
  rw [if_neg hB, if_neg hB, if_neg (by simp), if_neg (by simp)]
  have r1 : roundEven (0.999999 : ℝ) = 1 := roundEven_of_abs_lt (by
    rw [abs_of_nonpos (by norm_num)]; norm_num)
  have r2 : roundEven (1 : ℝ) = 1 := by exact_mod_cast roundEven_intCast 1
  have t1 : truncNat (0.999999 : ℝ) = 0 := by
    unfold truncNat
    have : ⌊(0.999999 : ℝ)⌋ = 0 := by rw [Int.floor_eq_zero_iff]; constructor <;> norm_num
    rw [this]; rfl
  have t2 : truncNat (1 : ℝ) = 1 := by unfold truncNat; simp
  have : raoExpand [a, b] (some [0.999999, 1]) = .ok [b] := by
    unfold raoExpand
    simp only
    rw [if_neg, if_neg, if_neg, if_neg]
    · simp [t1, t2]
    · simp [t1, t2]
    · simp
    · rintro ⟨v, hv, hc⟩
      simp only [List.mem_cons, List.not_mem_nil, or_false] at hv
      rcases hv with rfl | rfl
      · rw [r1] at hc; exact hc (by simpa using hcl)
      · rw [r2] at hc; apply hc; unfold isclose rtolDefault atolDefault; norm_num
    · rintro ⟨v, hv, hc⟩
      simp only [List.mem_cons, List.not_mem_nil, or_false] at hv
      rcases hv with rfl | rfl <;> norm_num at hc
  rw [this]; rfl

/-- Frequencies that are negative, not close to whole numbers or of the wrong length are refused. -/
theorem C90_rao_refused (x w : List ℝ) (B : ℤ) (draws : List (List ℝ))
    (h : (∃ v ∈ w, v < 0) ∨ (∃ v ∈ w, ∀ k : ℤ, 1 / 10 ^ 8 + 1 / 10 ^ 5 * |(k : ℝ)| < |v - k|) ∨
      w.length ≠ x.length ∨ (∀ v ∈ w, v < 1)) :
    raoSpacingTest x (some w) B draws = .error .valueError := by
  unfold raoSpacingTest
  split_ifs with h0 h1
  · rfl
  · rfl
  suffices raoExpand x (some w) = .error .valueError by rw [this]; rfl
  unfold raoExpand
  simp only
  by_cases a1 : ∃ v ∈ w, v < 0
  · rw [if_pos a1]
  rw [if_neg a1]
  by_cases a2 : ∃ v ∈ w, ¬ isclose v (roundEven v) rtolDefault atolDefault
  · rw [if_pos a2]
  rw [if_neg a2]
  by_cases a3 : w.length ≠ x.length
  · rw [if_pos a3]
  rw [if_neg a3, if_pos]
  rcases h with h | h | h | h
  · exact absurd h a1
  · exfalso
    obtain ⟨v, hv, hk⟩ := h
    apply a2
    refine ⟨v, hv, fun hc => ?_⟩
    have := hk (roundEven v)
    unfold isclose rtolDefault atolDefault at hc
    norm_num at this hc
    linarith
  · exact absurd h a3
  · push Not at a1
    have : ∀ k ∈ w.map truncNat, k = 0 := by
      intro k hk
      obtain ⟨v, hv, rfl⟩ := List.mem_map.1 hk
      unfold truncNat
      have : ⌊v⌋ = 0 := by rw [Int.floor_eq_zero_iff]; exact ⟨a1 v hv, h v hv⟩
      rw [this]; rfl
    rw [List.sum_eq_zero this]

/-- Two opposite observations are equally spaced. -/
example : ∃ p, raoSpacingTest [π, 0] none 1 [] = .ok (0, p) := by
  have hπ := Real.pi_pos
  have hx : ∀ a ∈ ([π, 0] : List ℝ), 0 ≤ a ∧ a < 2 * π := by
    intro a ha; simp at ha; rcases ha with rfl | rfl <;> constructor <;> linarith
  obtain ⟨U, p, g, h, -⟩ := C43_rao_spacing [π, 0] 1 [] le_rfl (by simp) hx
  refine ⟨p, ?_⟩
  have := (C43_rao_spacing_zero_iff _ _ _ hx U p h).2 ⟨0, by
    have : (List.range 2).map (fun i : ℕ => (0 : ℝ) + 2 * π / 2 * i) = [0, π] := by
      simp [List.range_succ]
    simp only [List.length_cons, List.length_nil, zero_add, Nat.reduceAdd, Nat.cast_ofNat] at this ⊢
    rw [this]
    exact List.Perm.swap _ _ _⟩
  rw [h, this]

end Verif.Props
