import Verif.Model.HypUnif
import Verif.Lemmas.Ranks
import Verif.Lemmas.Lists
import Verif.Props.Rayleigh
import Mathlib.Analysis.Real.Pi.Bounds

/-!
# C41 (Kuiper's test) and the Kuiper part of C31

`G(θ) = F(θ) - θ/2π` is the distance between the empirical distribution function of the data and the
uniform one. The statistic is `f (sup G + sup (-G))`.
-/

namespace Verif.Props

open Real Spec

set_option autoImplicit false

/-- `D` is the largest excess, over the circle, of the empirical over the uniform distribution
function (`σ = 1`), or of the uniform over the empirical one (`σ = -1`). -/
def IsSupExcess (σ : ℝ) (x : List ℝ) (D : ℝ) : Prop :=
  IsLUB {y : ℝ | ∃ θ, 0 ≤ θ ∧ θ < 2 * π ∧ y = σ * (ecdf x θ - θ / (2 * π))} D

lemma le_of_sub_pos_le {a b : ℝ} (h : ∀ ε > 0, a - ε ≤ b) : a ≤ b :=
  le_of_forall_pos_le_add fun ε hε => by linarith [h ε hε]

lemma countLe_sort (x : List ℝ) (θ : ℝ) : countLe (sortR x) θ = countLe x θ :=
  (sortR_perm x).countP_eq _

lemma lt_countLe_iff {s : List ℝ} (hs : s.Pairwise (· ≤ ·)) {i : ℕ} (hi : i < s.length) (θ : ℝ) :
    i < countLe s θ ↔ s[i] ≤ θ := by
  unfold countLe
  induction s generalizing i with
  | nil => simp at hi
  | cons a l ih =>
    rw [List.pairwise_cons] at hs
    rw [List.countP_cons]
    by_cases ha : a ≤ θ
    · simp only [ha, decide_true, if_true]
      cases i with
      | zero => simp [ha]
      | succ i =>
        have := ih hs.2 (i := i) (by simpa using hi)
        simp only [List.getElem_cons_succ]
        rw [← this]; omega
    · have h0 : l.countP (fun y => decide (y ≤ θ)) = 0 := by
        rw [List.countP_eq_zero]; intro b hb
        have := hs.1 b hb
        simp; linarith
      simp only [ha, h0, decide_false]
      cases i with
      | zero => simp [ha]
      | succ i =>
        have hm := hs.1 (l[i]'(by simpa using hi)) (List.getElem_mem _)
        simp only [List.getElem_cons_succ]
        constructor
        · intro h; simp at h
        · intro h; linarith

lemma kuiper_lub {x : List ℝ} (hne : x ≠ []) (hx : ∀ a ∈ x, 0 ≤ a ∧ a < 2 * π) :
    ∃ p m, IsSupExcess 1 x p ∧ IsSupExcess (-1) x m ∧
      kuiperV x = .ok (kuiperF x.length * (p + m)) := by
  set s := sortR x with hsdef
  have hsort : s.Pairwise (· ≤ ·) := sortR_sorted x
  have hlen : s.length = x.length := sortR_length x
  have hn : 0 < s.length := by rw [hlen]; exact List.length_pos_iff.2 hne
  have hnR : (0 : ℝ) < s.length := by exact_mod_cast hn
  have hπ := two_pi_pos'
  have hmem : ∀ i (hi : i < s.length), 0 ≤ s[i] ∧ s[i] < 2 * π := fun i hi =>
    hx _ (mem_sortR.1 (List.getElem_mem hi))
  have hE : ∀ θ, ecdf x θ = countLe s θ / s.length := fun θ => by
    unfold ecdf; rw [hsdef, countLe_sort, sortR_length]
  have hpne : kuiperPlus s ≠ [] := by
    unfold kuiperPlus; intro h
    have := congrArg List.length h; simp at this; simp [this] at hn
  have hmne : kuiperMinus s ≠ [] := by
    unfold kuiperMinus; intro h
    have := congrArg List.length h; simp at this; simp [this] at hn
  obtain ⟨p, hp, hp'⟩ := maxL_exists hpne
  obtain ⟨m, hm, hm'⟩ := maxL_exists hmne
  have pub : ∀ i (hi : i < s.length), ((i : ℝ) + 1) / s.length - s[i] / (2 * π) ≤ p := fun i hi =>
    hp'.2 _ (by unfold kuiperPlus; rw [List.mem_mapIdx]; exact ⟨i, hi, rfl⟩)
  have mub : ∀ i (hi : i < s.length), s[i] / (2 * π) - (i : ℝ) / s.length ≤ m := fun i hi =>
    hm'.2 _ (by unfold kuiperMinus; rw [List.mem_mapIdx]; exact ⟨i, hi, rfl⟩)
  have hp0 : 0 ≤ p := by
    refine le_trans ?_ (pub (s.length - 1) (by omega))
    have h1 := (hmem (s.length - 1) (by omega)).2
    have : ((s.length - 1 : ℕ) : ℝ) + 1 = s.length := by
      rw [Nat.cast_sub (by omega)]; push_cast; ring
    rw [this, div_self hnR.ne']
    have : s[s.length - 1] / (2 * π) ≤ 1 := by rw [div_le_one hπ]; exact h1.le
    linarith
  have hm0 : 0 ≤ m := by
    refine le_trans ?_ (mub 0 hn)
    have h1 := (hmem 0 hn).1
    have : (0 : ℝ) ≤ s[0] / (2 * π) := div_nonneg h1 hπ.le
    simp only [Nat.cast_zero, zero_div, sub_zero]; exact this
  refine ⟨p, m, ⟨?_, ?_⟩, ⟨?_, ?_⟩, ?_⟩
  · rintro y ⟨θ, h0, h1, rfl⟩
    rw [hE, one_mul]
    have hcl : countLe s θ ≤ s.length := List.countP_le_length
    rcases Nat.eq_zero_or_pos (countLe s θ) with hk | hk
    · rw [hk]
      have : 0 ≤ θ / (2 * π) := div_nonneg h0 hπ.le
      simp; linarith
    · have hi : countLe s θ - 1 < s.length := by omega
      have h2 := (lt_countLe_iff hsort hi θ).1 (by omega)
      have h3 := pub _ hi
      have : ((countLe s θ - 1 : ℕ) : ℝ) + 1 = countLe s θ := by
        rw [Nat.cast_sub hk]; push_cast; ring
      rw [this] at h3
      have : s[countLe s θ - 1] / (2 * π) ≤ θ / (2 * π) := div_le_div_of_nonneg_right h2 hπ.le
      linarith
  · intro b hb
    have hin := hp'.1
    unfold kuiperPlus at hin
    rw [List.mem_mapIdx] at hin
    obtain ⟨i, hi, rfl⟩ := hin
    refine le_trans ?_ (hb ⟨s[i], (hmem i hi).1, (hmem i hi).2, rfl⟩)
    rw [hE, one_mul]
    have h2 := (lt_countLe_iff hsort hi s[i]).2 le_rfl
    have : ((i : ℝ) + 1) ≤ countLe s s[i] := by exact_mod_cast h2
    have := div_le_div_of_nonneg_right this hnR.le
    linarith
  · rintro y ⟨θ, h0, h1, rfl⟩
    rw [hE]
    have hcl : countLe s θ ≤ s.length := List.countP_le_length
    rcases hcl.lt_or_eq with hk | hk
    · have h2 : θ < s[countLe s θ] := by
        by_contra h
        exact absurd ((lt_countLe_iff hsort hk θ).2 (not_lt.1 h)) (lt_irrefl _)
      have h3 := mub _ hk
      have : θ / (2 * π) ≤ s[countLe s θ] / (2 * π) := div_le_div_of_nonneg_right h2.le hπ.le
      linarith
    · rw [hk, div_self hnR.ne']
      have : θ / (2 * π) ≤ 1 := by rw [div_le_one hπ]; exact h1.le
      linarith
  · intro b hb
    have hin := hm'.1
    unfold kuiperMinus at hin
    rw [List.mem_mapIdx] at hin
    obtain ⟨i, hi, rfl⟩ := hin
    rcases (hmem i hi).1.lt_or_eq with hpos | hz
    · refine le_of_sub_pos_le fun ε hε => ?_
      set θ := max 0 (s[i] - 2 * π * ε) with hθ
      have hlt : θ < s[i] := by
        rw [hθ]; apply max_lt hpos
        have : 0 < 2 * π * ε := by positivity
        linarith
      refine le_trans ?_ (hb ⟨θ, le_max_left _ _, lt_trans hlt (hmem i hi).2, rfl⟩)
      rw [hE]
      have h2 : countLe s θ ≤ i := by
        by_contra h
        have := (lt_countLe_iff hsort hi θ).1 (not_le.1 h)
        linarith
      have h2' : (countLe s θ : ℝ) ≤ i := by exact_mod_cast h2
      have h3 := div_le_div_of_nonneg_right h2' hnR.le
      have h4 : s[i] - 2 * π * ε ≤ θ := le_max_right _ _
      have h5 : s[i] / (2 * π) - ε ≤ θ / (2 * π) := by
        rw [le_div_iff₀ hπ, sub_mul, div_mul_cancel₀ _ hπ.ne']; linarith
      linarith
    · have hneg : s[i] / (2 * π) - (i : ℝ) / s.length ≤ 0 := by
        rw [← hz]
        have : 0 ≤ (i : ℝ) / s.length := by positivity
        simp; linarith
      refine hneg.trans ?_
      refine le_of_sub_pos_le fun ε hε => ?_
      set θ := max 0 (2 * π - 2 * π * ε) with hθ
      have hlt : θ < 2 * π := by
        rw [hθ]; apply max_lt hπ
        have : 0 < 2 * π * ε := by positivity
        linarith
      refine le_trans ?_ (hb ⟨θ, le_max_left _ _, hlt, rfl⟩)
      rw [hE]
      have h2 : (countLe s θ : ℝ) ≤ s.length := by exact_mod_cast List.countP_le_length
      have h3 := div_le_div_of_nonneg_right h2 hnR.le
      rw [div_self hnR.ne'] at h3
      have h4 : 2 * π - 2 * π * ε ≤ θ := le_max_right _ _
      have h5 : 1 - ε ≤ θ / (2 * π) := by
        rw [le_div_iff₀ hπ]; linarith
      linarith
  · unfold kuiperV
    simp only [← hsdef, hp, hm]

lemma list_sum_range (f : ℕ → ℝ) (n : ℕ) : ((List.range n).map f).sum = ∑ j ∈ Finset.range n, f j := by
  induction n with
  | zero => simp
  | succ n ih => rw [List.range_succ, List.map_append, List.sum_append, ih, Finset.sum_range_succ]; simp

/-- **C41.** For a non-empty sample in `[0, 2π)` the statistic is `√n + 0.155 + 0.24/√n` times the sum
of the largest excess of the empirical over the uniform distribution function and of the largest
excess the other way round; with one "simulation" the p value comes from Kuiper's series. -/
theorem C41_kuiper (x : List ℝ) (B : ℤ) (draws : List (List ℝ)) (hB : 1 ≤ B) (hne : x ≠ [])
    (hx : ∀ a ∈ x, 0 ≤ a ∧ a < 2 * π) (hd : ∀ u ∈ draws, u ≠ []) :
    ∃ V pval dp dm, kuiperTest x B draws = .ok (V, pval) ∧
      IsSupExcess 1 x dp ∧ IsSupExcess (-1) x dm ∧
      V = (sqrt x.length + 0.155 + 0.24 / sqrt x.length) * (dp + dm) ∧
      (B = 1 → pval = ∑ j ∈ Finset.range 49,
        (2 * (4 * ((j : ℝ) + 1) ^ 2 * V ^ 2 - 1) * exp (-2 * ((j : ℝ) + 1) ^ 2 * V ^ 2)
          - 8 * V / (3 * (sqrt x.length + 0.155 + 0.24 / sqrt x.length)) * ((j : ℝ) + 1) ^ 2
            * (4 * ((j : ℝ) + 1) ^ 2 * V ^ 2 - 3) * exp (-2 * ((j : ℝ) + 1) ^ 2 * V ^ 2))) := by
  obtain ⟨p, m, h1, h2, h3⟩ := kuiper_lub hne hx
  have hl : x.length ≠ 0 := by simpa using hne
  unfold kuiperTest
  rw [if_neg (by omega), if_neg hl, h3]
  by_cases hB1 : B = 1
  · subst hB1
    exact ⟨_, _, p, m, by simp only [Except.bind, if_true]; rfl, h1, h2, rfl, fun _ =>
      list_sum_range _ 49⟩
  · have : ∃ Vs, draws.mapM kuiperV = .ok Vs := by
      clear h3
      induction draws with
      | nil => exact ⟨[], rfl⟩
      | cons u us ih =>
        obtain ⟨Vs, hVs⟩ := ih fun u hu => hd u (by simp [hu])
        have hu := hd u (by simp)
        have hv : ∃ v, kuiperV u = .ok v := by
          unfold kuiperV
          have hl : 0 < (sortR u).length := by rw [sortR_length]; exact List.length_pos_iff.2 hu
          obtain ⟨a, ha, -⟩ := maxL_exists (l := kuiperPlus (sortR u)) (by
            unfold kuiperPlus; intro h; have := congrArg List.length h; simp at this; simp [this] at hl)
          obtain ⟨b, hb, -⟩ := maxL_exists (l := kuiperMinus (sortR u)) (by
            unfold kuiperMinus; intro h; have := congrArg List.length h; simp at this; simp [this] at hl)
          simp only [ha, hb]; exact ⟨_, rfl⟩
        obtain ⟨v, hv⟩ := hv
        exact ⟨v :: Vs, by rw [List.mapM_cons, hv, hVs]; rfl⟩
    obtain ⟨Vs, hVs⟩ := this
    exact ⟨_, _, p, m, by simp only [Except.bind, hB1, if_false, hVs]; rfl, h1, h2, rfl,
      fun h => absurd h hB1⟩

lemma rot_range {t a : ℝ} (ha : 0 ≤ a ∧ a < 2 * π) (ht : 0 ≤ t ∧ t < 2 * π) :
    0 ≤ rot t a ∧ rot t a < 2 * π := by
  unfold rot
  split_ifs with h
  · constructor <;> linarith
  · constructor <;> linarith

lemma rot_surj {t b : ℝ} (hb : 0 ≤ b ∧ b < 2 * π) (ht : 0 ≤ t ∧ t < 2 * π) :
    ∃ a, (0 ≤ a ∧ a < 2 * π) ∧ rot t a = b := by
  by_cases h : t ≤ b
  · exact ⟨b - t, ⟨by linarith, by linarith⟩, by unfold rot; rw [if_pos (by linarith)]; ring⟩
  · exact ⟨b - t + 2 * π, ⟨by linarith, by linarith⟩, by unfold rot; rw [if_neg (by linarith)]; ring⟩

/-- Turning the sample shifts `F(θ) - θ/2π` by a constant (and turns it). -/
lemma excess_rot {x : List ℝ} (hne : x ≠ []) (hx : ∀ a ∈ x, 0 ≤ a ∧ a < 2 * π) {t : ℝ}
    (ht : 0 ≤ t ∧ t < 2 * π) : ∃ K : ℝ, ∀ θ, 0 ≤ θ → θ < 2 * π →
      ecdf (x.map (rot t)) (rot t θ) - rot t θ / (2 * π) = ecdf x θ - θ / (2 * π) + K := by
  refine ⟨1 - x.countP (fun a => decide (a < 2 * π - t)) / x.length - t / (2 * π), fun θ h0 h1 => ?_⟩
  have hnR : (x.length : ℝ) ≠ 0 := by simpa using hne
  unfold ecdf
  rw [countLe_rot x t θ hx ⟨h0, h1⟩ ht, List.length_map]
  have hπ := two_pi_pos'.ne'
  unfold rot
  split_ifs
  · field_simp; ring
  · field_simp; ring

lemma isSupExcess_rot {x : List ℝ} (hne : x ≠ []) (hx : ∀ a ∈ x, 0 ≤ a ∧ a < 2 * π) {t : ℝ}
    (ht : 0 ≤ t ∧ t < 2 * π) : ∃ K : ℝ, ∀ σ D, IsSupExcess σ x D →
      IsSupExcess σ (x.map (rot t)) (D + σ * K) := by
  obtain ⟨K, hK⟩ := excess_rot hne hx ht
  refine ⟨K, fun σ D hD => ⟨?_, ?_⟩⟩
  · rintro y ⟨φ, h0, h1, rfl⟩
    obtain ⟨θ, ⟨hθ0, hθ1⟩, rfl⟩ := rot_surj ⟨h0, h1⟩ ht
    rw [hK θ hθ0 hθ1, mul_add]
    have := hD.1 ⟨θ, hθ0, hθ1, rfl⟩
    linarith
  · intro b hb
    have : D ≤ b - σ * K := hD.2 (by
      rintro y ⟨θ, hθ0, hθ1, rfl⟩
      have hr := rot_range ⟨hθ0, hθ1⟩ ht
      have := hb ⟨rot t θ, hr.1, hr.2, rfl⟩
      rw [hK θ hθ0 hθ1, mul_add] at this
      linarith)
    linarith

lemma kuiperV_perm {x y : List ℝ} (h : x.Perm y) : kuiperV x = kuiperV y := by
  unfold kuiperV
  rw [sortR_eq_of_perm h, h.length_eq]

/-- The statistic lies between `f/n` and `f`, so it is positive. -/
theorem C41_kuiper_range (x : List ℝ) (B : ℤ) (draws : List (List ℝ)) (hne : x ≠ [])
    (hx : ∀ a ∈ x, 0 ≤ a ∧ a < 2 * π) (V pval : ℝ) (h : kuiperTest x B draws = .ok (V, pval)) :
    0 < V ∧ (sqrt x.length + 0.155 + 0.24 / sqrt x.length) / x.length ≤ V ∧
      V ≤ sqrt x.length + 0.155 + 0.24 / sqrt x.length := by
  obtain ⟨p, m, h1, h2, h3⟩ := kuiper_lub hne hx
  have hl : x.length ≠ 0 := by simpa using hne
  have hn : (0 : ℝ) < x.length := by exact_mod_cast Nat.pos_of_ne_zero hl
  have hV : V = kuiperF x.length * (p + m) := by
    unfold kuiperTest at h
    rw [h3] at h
    simp only [Except.bind] at h
    split_ifs at h
    · simp only [Except.ok.injEq, Prod.mk.injEq] at h; exact h.1.symm
    · cases hc : draws.mapM kuiperV with
      | error e => rw [hc] at h; simp [Except.map] at h
      | ok Vs => rw [hc] at h; simp only [Except.map, Except.ok.injEq, Prod.mk.injEq] at h; exact h.1.symm
  have hf : 0 < kuiperF x.length := by
    unfold kuiperF
    have : 0 < sqrt (x.length : ℝ) := Real.sqrt_pos.2 hn
    positivity
  have hπ := two_pi_pos'
  -- the sum of the two excesses is at least `1/n`: look just before and at one observation
  have hlow : 1 / (x.length : ℝ) ≤ p + m := by
    -- at the smallest observation's index in the sorted list
    obtain ⟨a, ha⟩ := List.exists_mem_of_ne_nil _ hne
    have ha' := hx a ha
    have h1n : 1 / (x.length : ℝ) ≤ 1 := by
      rw [div_le_one hn]; exact_mod_cast Nat.one_le_iff_ne_zero.2 hl
    have hp1 := h1.1 ⟨a, ha'.1, ha'.2, rfl⟩
    rcases ha'.1.lt_or_eq with hpos | hz
    · have hlt : ∀ θ, 0 ≤ θ → θ < a → 1 / (x.length : ℝ) - (a - θ) / (2 * π) ≤ p + m := by
        intro θ h0 hθ
        have hm1 := h2.1 ⟨θ, h0, by linarith, rfl⟩
        have hc : countLe x θ + 1 ≤ countLe x a := by
          unfold countLe
          obtain ⟨l1, l2, rfl⟩ := List.append_of_mem ha
          simp only [List.countP_append, List.countP_cons]
          have e1 : l1.countP (fun y => decide (y ≤ θ)) ≤ l1.countP (fun y => decide (y ≤ a)) :=
            List.countP_mono_left fun y _ hy => by simp only [decide_eq_true_eq] at *; linarith
          have e2 : l2.countP (fun y => decide (y ≤ θ)) ≤ l2.countP (fun y => decide (y ≤ a)) :=
            List.countP_mono_left fun y _ hy => by simp only [decide_eq_true_eq] at *; linarith
          simp only [not_le.2 hθ, le_refl, decide_true, decide_false, if_true]
          simp; omega
        have hc' : (countLe x θ : ℝ) + 1 ≤ countLe x a := by exact_mod_cast hc
        have := div_le_div_of_nonneg_right hc' hn.le
        unfold ecdf at hp1 hm1
        rw [add_div] at this
        have e : (a - θ) / (2 * π) = a / (2 * π) - θ / (2 * π) := by ring
        rw [e]; linarith
      refine le_of_sub_pos_le fun ε hε => ?_
      have hlt2 : max 0 (a - 2 * π * ε) < a := max_lt hpos (by
        have : 0 < 2 * π * ε := by positivity
        linarith)
      refine le_trans ?_ (hlt _ (le_max_left _ _) hlt2)
      have h4 : a - 2 * π * ε ≤ max 0 (a - 2 * π * ε) := le_max_right _ _
      have : (a - max 0 (a - 2 * π * ε)) / (2 * π) ≤ ε := by
        rw [div_le_iff₀ hπ]; linarith
      linarith
    · have hm0 : 0 ≤ m := by
        refine le_of_sub_pos_le fun ε hε => ?_
        have hlt : max 0 (2 * π - 2 * π * ε) < 2 * π := max_lt hπ (by
          have : 0 < 2 * π * ε := by positivity
          linarith)
        have h5 := h2.1 ⟨max 0 (2 * π - 2 * π * ε), le_max_left _ _, hlt, rfl⟩
        have h4 : 2 * π - 2 * π * ε ≤ max 0 (2 * π - 2 * π * ε) := le_max_right _ _
        have h6 : 1 - ε ≤ max 0 (2 * π - 2 * π * ε) / (2 * π) := by rw [le_div_iff₀ hπ]; linarith
        have h7 : ecdf x (max 0 (2 * π - 2 * π * ε)) ≤ 1 := by
          unfold ecdf; rw [div_le_one hn]; exact_mod_cast List.countP_le_length
        linarith
      have hc : 1 ≤ countLe x a := by
        unfold countLe
        rw [Nat.one_le_iff_ne_zero, ne_eq, List.countP_eq_zero]
        intro hh; exact hh a ha (by simp)
      have hc' : (1 : ℝ) ≤ countLe x a := by exact_mod_cast hc
      have := div_le_div_of_nonneg_right hc' hn.le
      unfold ecdf at hp1
      rw [← hz] at hp1 this
      simp only [zero_div, sub_zero, one_mul] at hp1
      linarith
  have hup : p + m ≤ 1 := by
    -- `G(θ) - G(φ) ≤ 1` for all `θ, φ`
    have hall : ∀ θ φ, 0 ≤ θ → θ < 2 * π → 0 ≤ φ → φ < 2 * π →
        (ecdf x θ - θ / (2 * π)) - (ecdf x φ - φ / (2 * π)) ≤ 1 := by
      intro θ φ h0 h1 h0' h1'
      have u1 : ecdf x θ ≤ 1 := by
        unfold ecdf; rw [div_le_one hn]; exact_mod_cast List.countP_le_length
      have u2 : 0 ≤ ecdf x φ := by unfold ecdf; positivity
      rcases le_total φ θ with hle | hle
      · have : φ / (2 * π) ≤ θ / (2 * π) := div_le_div_of_nonneg_right hle hπ.le
        linarith
      · have hc : countLe x θ ≤ countLe x φ :=
          List.countP_mono_left fun y _ hy => by simp only [decide_eq_true_eq] at *; linarith
        have hc' : ecdf x θ ≤ ecdf x φ := by
          unfold ecdf; exact div_le_div_of_nonneg_right (by exact_mod_cast hc) hn.le
        have e1 : φ / (2 * π) ≤ 1 := by rw [div_le_one hπ]; exact h1'.le
        have e2 : 0 ≤ θ / (2 * π) := div_nonneg h0 hπ.le
        linarith
    have hpm : p ≤ 1 - m := h1.2 (by
      rintro y ⟨θ, h0, h1', rfl⟩
      have : m ≤ 1 - (ecdf x θ - θ / (2 * π)) := h2.2 (by
        rintro z ⟨φ, h0', h1'', rfl⟩
        have := hall θ φ h0 h1' h0' h1''
        linarith)
      linarith)
    linarith
  have hd : 0 < 1 / (x.length : ℝ) := by positivity
  rw [hV]
  refine ⟨mul_pos hf (by linarith), ?_, ?_⟩
  · have := mul_le_mul_of_nonneg_left hlow hf.le
    rw [mul_one_div] at this
    exact this
  · have := mul_le_mul_of_nonneg_left hup hf.le
    rw [mul_one] at this
    exact this

/-- The result depends only on which directions were observed: not on their order, and not on the
choice of the zero direction. -/
theorem C41_kuiper_rotate (x x' : List ℝ) (t : ℝ) (B : ℤ) (draws : List (List ℝ))
    (hx : ∀ a ∈ x, 0 ≤ a ∧ a < 2 * π) (hr : IsRotated t x x') :
    kuiperTest x' B draws = kuiperTest x B draws := by
  obtain ⟨hs, hp⟩ := isRotated_rot hr hx
  set s := angmod2pi t
  have hlen : x'.length = x.length := by rw [hp.length_eq, List.length_map]
  unfold kuiperTest
  rw [hlen]
  by_cases hl : x.length = 0
  · simp [hl]
  · have hne : x ≠ [] := by simpa using hl
    suffices kuiperV x' = kuiperV x by rw [this]
    rw [kuiperV_perm hp]
    obtain ⟨p, m, h1, h2, h3⟩ := kuiper_lub hne hx
    have hx' : ∀ a ∈ x.map (rot s), 0 ≤ a ∧ a < 2 * π := by
      intro a ha
      obtain ⟨b, hb, rfl⟩ := List.mem_map.1 ha
      exact rot_range (hx b hb) hs
    obtain ⟨p', m', h1', h2', h3'⟩ := kuiper_lub (x := x.map (rot s)) (by simpa using hne) hx'
    obtain ⟨K, hK⟩ := isSupExcess_rot hne hx hs
    have e1 : p' = p + 1 * K := h1'.unique (hK 1 p h1)
    have e2 : m' = m + -1 * K := h2'.unique (hK (-1) m h2)
    rw [h3, h3', e1, e2, List.length_map]
    congr 2; ring

/-- Bad simulation counts and empty samples are refused. -/
theorem C41_kuiper_refused (x : List ℝ) (B : ℤ) (draws : List (List ℝ)) (h : B ≤ 0 ∨ x = []) :
    kuiperTest x B draws = .error .valueError := by
  unfold kuiperTest
  by_cases hB : B ≤ 0
  · rw [if_pos hB]
  · have hl : x.length = 0 := by
      rcases h with h | h
      · exact absurd h hB
      · simp [h]
    rw [if_neg hB, if_pos hl]

/-- **C31 for Kuiper's test.** With `B ≥ 2` simulated samples the p value is `k/(B+1)`, where `k - 1`
counts the simulated samples whose own statistic is at least the observed one. -/
theorem C31_kuiper (x : List ℝ) (B : ℤ) (draws : List (List ℝ)) (hB : 2 ≤ B)
    (hlen : (draws.length : ℤ) = B) (V pval : ℝ) (h : kuiperTest x B draws = .ok (V, pval)) :
    ∃ (Vs : List ℝ) (k : ℕ),
      List.Forall₂ (fun u v => ∃ q, kuiperTest u 1 [] = .ok (v, q)) draws Vs ∧
      1 ≤ k ∧ (k : ℤ) ≤ B + 1 ∧ k = (Vs.countP fun v => decide (V ≤ v)) + 1 ∧
      pval = (k : ℝ) / (B + 1) := by
  unfold kuiperTest at h
  rw [if_neg (by omega)] at h
  by_cases hl : x.length = 0
  · rw [if_pos hl] at h; cases h
  rw [if_neg hl] at h
  cases hv : kuiperV x with
  | error e => rw [hv] at h; cases h
  | ok v =>
    rw [hv] at h
    simp only [Except.bind] at h
    rw [if_neg (by omega)] at h
    cases hc : draws.mapM kuiperV with
    | error e => rw [hc] at h; cases h
    | ok Vs =>
      rw [hc] at h
      simp only [Except.map, Except.ok.injEq, Prod.mk.injEq] at h
      obtain ⟨rfl, rfl⟩ := h
      have hf : List.Forall₂ (fun u v => kuiperV u = .ok v) draws Vs := by
        clear hlen
        induction draws generalizing Vs with
        | nil => cases hc; exact .nil
        | cons u us ih =>
          rw [List.mapM_cons] at hc
          cases hu : kuiperV u with
          | error e => rw [hu] at hc; cases hc
          | ok w =>
            rw [hu] at hc
            cases hus : us.mapM kuiperV with
            | error e => rw [hus] at hc; cases hc
            | ok ws =>
              rw [hus] at hc
              cases hc
              exact .cons hu (ih _ hus)
      have hVl : Vs.length = draws.length := hf.length_eq.symm
      obtain ⟨k, hk1, hk2, hk, he⟩ := mcPvalue_eq Vs v
      refine ⟨Vs, k, hf.imp ?_, hk1, by omega, hk, ?_⟩
      · intro u w hu
        have : u.length ≠ 0 := by
          intro h0
          have : u = [] := List.length_eq_zero_iff.1 h0
          subst this
          unfold kuiperV at hu
          simp [kuiperPlus, maxL, sortR] at hu
        refine ⟨kuiperSeries w (kuiperF u.length), ?_⟩
        unfold kuiperTest
        rw [if_neg (by norm_num), if_neg this, hu]
        simp [Except.bind]
      · have : ((draws.length : ℤ) : ℝ) = (B : ℝ) := by rw [hlen]
        rw [he, hVl, ← this, Int.cast_natCast]

/-- Three observations. -/
example : ∃ V p, kuiperTest [1, 0, 2] 1 [] = .ok (V, p) ∧ 0 < V := by
  have hx : ∀ a ∈ ([1, 0, 2] : List ℝ), 0 ≤ a ∧ a < 2 * π := by
    have := Real.pi_gt_three
    intro a ha; simp at ha; rcases ha with rfl | rfl | rfl <;> constructor <;> linarith
  obtain ⟨V, p, -, -, h, -⟩ := C41_kuiper [1, 0, 2] 1 [] le_rfl (by simp) hx (by simp)
  exact ⟨V, p, h, (C41_kuiper_range _ 1 [] (by simp) hx V p h).1⟩

/-- A rotation to which the theorem applies. -/
example : IsRotated 1 [6, 0] [1, 7 - 2 * π] := by
  have h1 := Real.pi_gt_three
  have h2 := Real.pi_lt_d2
  refine ⟨[7 - 2 * π, 1], .cons ⟨⟨by linarith, by linarith⟩, ⟨-1, by push_cast; ring⟩⟩
    (.cons ⟨⟨by norm_num, by linarith⟩, ⟨0, by push_cast; ring⟩⟩ .nil), List.Perm.swap _ _ _⟩

end Verif.Props
