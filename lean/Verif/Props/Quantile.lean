import Verif.Model.Range
import Verif.Spec.Quantile
import Verif.Lemmas.Median

/-!
# C27: circular quantiles
-/

set_option autoImplicit false

namespace Verif.Props

open Verif Verif.Spec Real

private lemma shifted_spec (m a : ℝ) :
    -π < shifted m a ∧ shifted m a ≤ π ∧ SameDir a (m + shifted m a) := by
  have h0 := pymod_nonneg two_pi_pos' (a - m)
  have h1 := pymod_lt two_pi_pos' (a - m)
  obtain ⟨k, hk⟩ := (pymod_cong (a - m) (2 * π)).symm
  have hpi := pi_pos
  unfold shifted
  simp only
  split_ifs with h
  · exact ⟨by linarith, by linarith, k + 1, by push_cast; linarith⟩
  · exact ⟨by linarith, not_lt.1 h, k, by linarith⟩

private lemma getD_of {s : List ℝ} {i : ℕ} (h : i < s.length) : s[i]? = some (s.getD i 0) := by
  rw [List.getD_eq_getElem?_getD, List.getElem?_eq_getElem h, Option.getD_some]

/-- The library quantile used by the code is the linear (type 7) quantile. -/
private lemma npQuantile_spec (data : List ℝ) (hne : data ≠ []) (q : ℝ) (h0 : 0 ≤ q) (h1 : q ≤ 1) :
    IsLinearQuantile data q (npQuantile data q true) := by
  have hn : 1 ≤ data.length := List.length_pos_iff.2 hne
  have hn' : (1 : ℝ) ≤ data.length := by exact_mod_cast hn
  refine ⟨sortR data, sortR_perm data, sortR_sorted data, ?_⟩
  set s := sortR data with hs
  have hlen : s.length = data.length := sortR_length data
  set v := q * ((data.length : ℝ) - 1) with hv
  have hv0 : 0 ≤ v := mul_nonneg h0 (by linarith)
  have hv1 : v ≤ (data.length : ℝ) - 1 := by
    rw [hv]; nlinarith
  have hfl : (⌊v⌋₊ : ℝ) ≤ v := Nat.floor_le hv0
  have hfl' : v < ⌊v⌋₊ + 1 := Nat.lt_floor_add_one v
  have hi : ⌊v⌋₊ < s.length := by
    rw [hlen]
    have : (⌊v⌋₊ : ℝ) < data.length := by linarith
    exact_mod_cast this
  have hval : npQuantile data q true = s.getD ⌊v⌋₊ 0 + (s.getD ⌈v⌉₊ 0 - s.getD ⌊v⌋₊ 0) * (v - ⌊v⌋₊) := by
    unfold npQuantile
    simp only [← hs, hlen, ← hv]
    rfl
  refine ⟨⌊v⌋₊, v - ⌊v⌋₊, s.getD ⌊v⌋₊ 0, by linarith, by linarith, by ring, getD_of hi, ?_⟩
  by_cases hz : v - ⌊v⌋₊ = 0
  · left
    refine ⟨hz, ?_⟩
    rw [hval, hz]; ring
  · right
    have hlt : (⌊v⌋₊ : ℝ) < v := lt_of_le_of_ne hfl (fun h => hz (by linarith))
    have hc : ⌈v⌉₊ = ⌊v⌋₊ + 1 := by
      rw [Nat.ceil_eq_iff (by omega)]
      constructor
      · simpa using hlt
      · push_cast; linarith
    have hi1 : ⌊v⌋₊ + 1 < s.length := by
      rw [hlen]
      have : ((⌊v⌋₊ : ℝ)) < (data.length : ℝ) - 1 := by linarith
      have h2 : ((⌊v⌋₊ + 1 : ℕ) : ℝ) < data.length := by push_cast; linarith
      exact_mod_cast h2
    refine ⟨s.getD (⌊v⌋₊ + 1) 0, getD_of hi1, ?_⟩
    rw [hval, hc]; ring

/-- With a defined median `m`: every quantile is in `[0, 2π)` and equals `m` plus the linear
quantile of the deviations from `m`, where the deviation of an observation is the representative of
its difference to `m` in `(-π, π]`. -/
theorem C27_quantile (alpha probs : List ℝ) (init : List (Option ℝ)) (qs : List ℝ)
    (hne : alpha ≠ []) (h : circQuantile alpha probs 7 init = .ok (some qs)) :
    ∃ m rest, circMedian alpha (ones alpha) "deviation" true "all" init = .ok (some (m :: rest)) ∧
      ∃ dev : List ℝ,
        List.Forall₂ (fun a d => -π < d ∧ d ≤ π ∧ SameDir a (m + d)) alpha dev ∧
        List.Forall₂ (fun p q => 0 ≤ q ∧ q < 2 * π ∧
          ∃ x, IsLinearQuantile dev p x ∧ SameDir q (m + x)) probs qs := by
  unfold circQuantile at h
  cases hmed : circMedian alpha (ones alpha) "deviation" true "all" init with
  | error e => rw [hmed] at h; cases h
  | ok med =>
    rw [hmed] at h
    match med, h with
    | none, h => simp [Except.bind] at h
    | some [], h => simp [Except.bind] at h
    | some (m :: rest), h =>
      refine ⟨m, rest, rfl, alpha.map (shifted m), ?_, ?_⟩
      · rw [List.forall₂_map_right_iff, List.forall₂_same]
        intro a _
        exact shifted_spec m a
      · simp only [Except.bind, quantilesFrom] at h
        split_ifs at h with hp
        · simp only [Except.map, Except.ok.injEq, Option.some.injEq] at h
          rw [← h, List.forall₂_map_right_iff, List.forall₂_same]
          intro p hpm
          have hpp := List.all_eq_true.1 hp p hpm
          simp only [Bool.and_eq_true, decide_eq_true_eq] at hpp
          refine ⟨pymod_nonneg two_pi_pos' _, pymod_lt two_pi_pos' _, _,
            npQuantile_spec _ (by simpa using hne) p hpp.1 hpp.2, ?_⟩
          have := pymod_cong (npQuantile (alpha.map (shifted m)) p true + m) (2 * π)
          rw [show (npQuantile (alpha.map (shifted m)) p true + m)
            = m + npQuantile (alpha.map (shifted m)) p true by ring] at this
          convert this using 2
          rw [add_comm]; rfl
        · cases h

/-- The linear quantile at 0 is the smallest value and at 1 the largest. -/
theorem C27_quantile_ends (data : List ℝ) (x : ℝ) :
    (IsLinearQuantile data 0 x → x ∈ data ∧ ∀ y ∈ data, x ≤ y) ∧
    (IsLinearQuantile data 1 x → x ∈ data ∧ ∀ y ∈ data, y ≤ x) := by
  constructor
  · rintro ⟨s, hp, hs, i, f, a, hf0, hf1, he, ha, hx⟩
    rw [zero_mul] at he
    have hi : (i : ℝ) = 0 := by
      have : (0 : ℝ) ≤ i := Nat.cast_nonneg i
      linarith
    have hi' : i = 0 := by exact_mod_cast hi
    have hf : f = 0 := by linarith
    subst hi'
    have hxa : x = a := by
      rcases hx with ⟨-, h⟩ | ⟨b, -, h⟩
      · exact h
      · rw [h, hf]; ring
    subst hxa
    cases s with
    | nil => simp at ha
    | cons y s =>
      simp only [List.getElem?_cons_zero, Option.some.injEq] at ha
      subst ha
      refine ⟨hp.mem_iff.1 (by simp), fun z hz => ?_⟩
      rcases List.mem_cons.1 (hp.mem_iff.2 hz) with h | h
      · exact h.ge
      · exact (List.pairwise_cons.1 hs).1 z h
  · rintro ⟨s, hp, hs, i, f, a, hf0, hf1, he, ha, hx⟩
    rw [one_mul, ← hp.length_eq] at he
    obtain ⟨hil, hia⟩ := List.getElem?_eq_some_iff.1 ha
    have hi' : i = s.length - 1 := by
      have h1 : (s.length : ℝ) < i + 2 := by linarith
      have h2 : s.length < i + 2 := by exact_mod_cast h1
      omega
    have hf : f = 0 := by
      have : (i : ℝ) = (s.length : ℝ) - 1 := by
        rw [hi', Nat.cast_sub (by omega)]; simp
      linarith
    have hxa : x = a := by
      rcases hx with ⟨-, h⟩ | ⟨b, -, h⟩
      · exact h
      · rw [h, hf]; ring
    subst hxa
    refine ⟨hp.mem_iff.1 (List.mem_of_getElem? ha), fun z hz => ?_⟩
    obtain ⟨j, hj, rfl⟩ := List.getElem_of_mem (hp.mem_iff.2 hz)
    rw [← hia]
    rcases Nat.lt_or_ge j i with h | h
    · exact List.pairwise_iff_getElem.1 hs j i hj hil h
    · have : j = i := by omega
      subst this; exact le_rfl

/-- The linear quantile is unique and non-decreasing in the probability. -/
theorem C27_quantile_mono (data : List ℝ) (p p' x x' : ℝ) (hpp : p ≤ p')
    (h : IsLinearQuantile data p x) (h' : IsLinearQuantile data p' x') : x ≤ x' := by
  obtain ⟨s, hp, hs, i, f, a, hf0, hf1, he, ha, hx⟩ := h
  obtain ⟨s', hp', hs', j, g, c, hg0, hg1, he', hc, hx'⟩ := h'
  have hss : s = s' := List.Perm.eq_of_pairwise (le := fun a b : ℝ => a ≤ b)
    (fun a b _ _ h1 h2 => le_antisymm h1 h2) hs hs' (hp.trans hp'.symm)
  subst hss
  have hmono : ∀ {k l : ℕ} {y z : ℝ}, k ≤ l → s[k]? = some y → s[l]? = some z → y ≤ z := by
    intro k l y z hkl hy hz
    obtain ⟨h1, rfl⟩ := List.getElem?_eq_some_iff.1 hy
    obtain ⟨h2, rfl⟩ := List.getElem?_eq_some_iff.1 hz
    rcases Nat.lt_or_ge k l with h | h
    · exact List.pairwise_iff_getElem.1 hs k l h1 h2 h
    · have : k = l := by omega
      subst this; exact le_rfl
  obtain ⟨hil, -⟩ := List.getElem?_eq_some_iff.1 ha
  have hn : (1 : ℝ) ≤ data.length := by
    rw [← hp.length_eq]; exact_mod_cast (by omega : 1 ≤ s.length)
  have hpos : (i : ℝ) + f ≤ j + g := by
    rw [← he, ← he']
    exact mul_le_mul_of_nonneg_right hpp (by linarith)
  have hij : i ≤ j := by
    have : (i : ℝ) < j + 1 := by linarith
    have : i < j + 1 := by exact_mod_cast this
    omega
  have hcx : c ≤ x' := by
    rcases hx' with ⟨-, h⟩ | ⟨b, hb, h⟩
    · exact h.ge
    · have := hmono (Nat.le_succ j) hc hb
      rw [h]; nlinarith
  rcases Nat.eq_or_lt_of_le hij with rfl | hlt
  · rw [ha] at hc
    simp only [Option.some.injEq] at hc
    subst hc
    rcases hx with ⟨-, h⟩ | ⟨b, hb, h⟩
    · rw [h]; exact hcx
    · rcases hx' with ⟨h0, -⟩ | ⟨b', hb', h'⟩
      · have : f = 0 := by linarith
        have hxa : x = a := by rw [h, this]; ring
        rw [hxa]; exact hcx
      · rw [hb] at hb'
        simp only [Option.some.injEq] at hb'
        subst hb'
        have := hmono (Nat.le_succ i) ha hb
        rw [h, h']; nlinarith
  · refine le_trans ?_ hcx
    rcases hx with ⟨-, h⟩ | ⟨b, hb, h⟩
    · rw [h]; exact hmono hij ha hc
    · have h1 := hmono (Nat.le_succ i) ha hb
      have h2 := hmono (Nat.succ_le_of_lt hlt) hb hc
      rw [h]; nlinarith

/-- An undefined median makes every quantile undefined; otherwise a probability outside `[0, 1]` is
refused. -/
theorem C27_quantile_undefined (alpha probs : List ℝ) (t : ℤ) (init : List (Option ℝ)) :
    (circMedian alpha (ones alpha) "deviation" true "all" init = .ok none →
      circQuantile alpha probs t init = .ok none) ∧
    (∀ m rest, circMedian alpha (ones alpha) "deviation" true "all" init = .ok (some (m :: rest)) →
      (∃ p ∈ probs, p < 0 ∨ 1 < p) → circQuantile alpha probs t init = .error .valueError) := by
  constructor
  · intro h
    simp [circQuantile, h, Except.bind]
  · rintro m rest h ⟨p, hp, hout⟩
    simp only [circQuantile, h, Except.bind, quantilesFrom]
    rw [if_neg]
    · rfl
    · intro hall
      have := List.all_eq_true.1 hall p hp
      simp only [Bool.and_eq_true, decide_eq_true_eq] at this
      rcases hout with h | h <;> linarith

/-- A sample on which the quantiles are defined: three coinciding observations. -/
example : circMedian [1, 1, 1] (ones [1, 1, 1]) "deviation" true "all" [] = .ok (some [1]) := by
  have h : allCoincide [1, 1, 1] (ones [1, 1, 1]) = true := by
    unfold allCoincide
    rw [circR_eq, if_neg (by simp [ones]; norm_num)]
    have : moment [1, 1, 1] (ones [1, 1, 1]) 1 = Complex.exp ((1 : ℝ) * Complex.I) := by
      simp [moment, expSum, ones]
      ring
    rw [this, Complex.norm_exp_ofReal_mul_I]
    simp [isclose, rtolDefault]
    positivity
  simp [circMedian, h]

end Verif.Props
