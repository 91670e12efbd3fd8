import Verif.Lemmas.Pchip
import Verif.Lemmas.DistTable
import Mathlib.MeasureTheory.Constructions.BorelSpace.Order
import Mathlib.MeasureTheory.Constructions.BorelSpace.Real
import Mathlib.MeasureTheory.Function.Floor

/-! # The monotone cubic interpolation of data that need not be monotone -/

set_option autoImplicit false

namespace Verif

open Real

private lemma sign_mul_pos {c : ℝ} (hc : 0 < c) (x : ℝ) : SignType.sign (c * x) = SignType.sign x := by
  rw [sign_mul, sign_pos hc, one_mul]

theorem pchipEdge_mul {c : ℝ} (hc : 0 < c) (h0 h1 m0 m1 : ℝ) : pchipEdge h0 h1 (c * m0) (c * m1) = c * pchipEdge h0 h1 m0 m1 := by
  unfold pchipEdge
  simp only
  have e : ((2 * h0 + h1) * (c * m0) - h0 * (c * m1)) / (h0 + h1) = c * (((2 * h0 + h1) * m0 - h0 * m1) / (h0 + h1)) := by ring
  rw [e, sign_mul_pos hc, sign_mul_pos hc, sign_mul_pos hc, abs_mul, abs_mul, abs_of_pos hc]
  have e2 : (c * |((2 * h0 + h1) * m0 - h0 * m1) / (h0 + h1)| > 3 * (c * |m0|)) ↔ (|((2 * h0 + h1) * m0 - h0 * m1) / (h0 + h1)| > 3 * |m0|) := by
    rw [show 3 * (c * |m0|) = c * (3 * |m0|) by ring]
    exact mul_lt_mul_iff_right₀ hc
  simp only [e2]
  split_ifs
  · simp
  · ring
  · rfl

theorem pchipInner_mul {c : ℝ} (hc : 0 < c) (h0 h1 m0 m1 : ℝ) : pchipInner h0 h1 (c * m0) (c * m1) = c * pchipInner h0 h1 m0 m1 := by
  unfold pchipInner
  rw [sign_mul_pos hc, sign_mul_pos hc]
  simp only [mul_eq_zero, hc.ne', false_or]
  split_ifs
  · simp
  · rw [show (2 * h1 + h0) / (c * m0) + (h1 + 2 * h0) / (c * m1) = ((2 * h1 + h0) / m0 + (h1 + 2 * h0) / m1) / c by
      rw [mul_comm c m0, mul_comm c m1, ← div_div, ← div_div, ← add_div]]
    rw [div_right_comm, one_div_div]
    ring

theorem pchipSecant_mul (c : ℝ) (xs ys : ℕ → ℝ) (i : ℕ) : pchipSecant xs (fun j => c * ys j) i = c * pchipSecant xs ys i := by
  unfold pchipSecant; ring

theorem pchipSlope_mul {c : ℝ} (hc : 0 < c) (n : ℕ) (xs ys : ℕ → ℝ) (i : ℕ) :
    pchipSlope n xs (fun j => c * ys j) i = c * pchipSlope n xs ys i := by
  unfold pchipSlope
  simp only [pchipSecant_mul]
  split_ifs
  · rfl
  · exact pchipEdge_mul hc _ _ _ _
  · exact pchipEdge_mul hc _ _ _ _
  · exact pchipInner_mul hc _ _ _ _

/-- A positive factor of the data is a factor of the interpolation. -/
theorem pchip_mul {c : ℝ} (hc : 0 < c) (n : ℕ) (xs ys : ℕ → ℝ) (x : ℝ) :
    pchip n xs (fun j => c * ys j) x = c * pchip n xs ys x := by
  unfold pchip hermite
  simp only [pchipSlope_mul hc]
  ring

private lemma edge_ratio {h0 h1 m0 m1 : ℝ} (hh0 : 0 < h0) (hh1 : 0 < h1) : ∃ a, 0 ≤ a ∧ a ≤ 3 ∧ pchipEdge h0 h1 m0 m1 = a * m0 := by
  unfold pchipEdge
  simp only
  obtain ⟨d, hd⟩ : ∃ d, d = ((2 * h0 + h1) * m0 - h0 * m1) / (h0 + h1) := ⟨_, rfl⟩
  rw [← hd]
  split_ifs with c1 c2
  · exact ⟨0, le_rfl, by norm_num, by ring⟩
  · exact ⟨3, by norm_num, le_rfl, rfl⟩
  · rw [not_not] at c1
    rcases eq_or_ne m0 0 with e | e
    · rw [e, sign_zero, sign_eq_zero_iff] at c1
      exact ⟨0, le_rfl, by norm_num, by rw [c1]; ring⟩
    · have hd3 : |d| ≤ 3 * |m0| := by
        by_contra hc
        have hs : SignType.sign m0 = SignType.sign m1 := by
          by_contra hs; exact c2 ⟨hs, not_le.1 hc⟩
        apply hc
        have hpos : 0 < h0 + h1 := by linarith
        rcases lt_or_gt_of_ne e with h | h
        · rw [sign_neg h] at c1 hs
          have hdn := sign_eq_neg_one_iff.1 c1
          have hm1 := sign_eq_neg_one_iff.1 hs.symm
          rw [abs_of_neg hdn, abs_of_neg h, hd, ← neg_div, div_le_iff₀ hpos]
          nlinarith [mul_neg_of_pos_of_neg hh0 hm1, mul_neg_of_pos_of_neg hh1 h, mul_neg_of_pos_of_neg hh0 h]
        · rw [sign_pos h] at c1 hs
          have hdn := sign_eq_one_iff.1 c1
          have hm1 := sign_eq_one_iff.1 hs.symm
          rw [abs_of_pos hdn, abs_of_pos h, hd, div_le_iff₀ hpos]
          nlinarith [mul_pos hh0 hm1, mul_pos hh1 h, mul_pos hh0 h]
      refine ⟨d / m0, ?_, ?_, by field_simp⟩
      · rcases lt_or_gt_of_ne e with h | h
        · rw [sign_neg h] at c1
          exact div_nonneg_of_nonpos (sign_eq_neg_one_iff.1 c1).le h.le
        · rw [sign_pos h] at c1
          exact div_nonneg (sign_eq_one_iff.1 c1).le h.le
      · refine (le_abs_self _).trans ?_
        rw [abs_div, div_le_iff₀ (abs_pos.2 e)]
        exact hd3

private lemma inner_ratio {h0 h1 m0 m1 : ℝ} (hh0 : 0 < h0) (hh1 : 0 < h1) :
    (∃ a, 0 ≤ a ∧ a ≤ 3 ∧ pchipInner h0 h1 m0 m1 = a * m0) ∧ ∃ a, 0 ≤ a ∧ a ≤ 3 ∧ pchipInner h0 h1 m0 m1 = a * m1 := by
  unfold pchipInner
  split_ifs with c
  · exact ⟨⟨0, le_rfl, by norm_num, by ring⟩, 0, le_rfl, by norm_num, by ring⟩
  · push Not at c
    obtain ⟨c0, c1, c2⟩ := c
    have hq : 0 < m1 / m0 := by
      rcases lt_or_gt_of_ne c1 with h | h
      · rw [sign_neg h] at c0; exact div_pos_of_neg_of_neg (sign_eq_neg_one_iff.1 c0.symm) h
      · rw [sign_pos h] at c0; exact div_pos (sign_eq_one_iff.1 c0.symm) h
    obtain ⟨q, hqd⟩ : ∃ q, q = m1 / m0 := ⟨_, rfl⟩
    rw [← hqd] at hq
    have e1 : m1 = q * m0 := by rw [hqd]; field_simp
    have hden : 0 < (2 * h1 + h0) * q + (h1 + 2 * h0) := by positivity
    have key : 1 / (((2 * h1 + h0) / m0 + (h1 + 2 * h0) / m1) / ((2 * h1 + h0) + (h1 + 2 * h0)))
        = 3 * (h0 + h1) * q / ((2 * h1 + h0) * q + (h1 + 2 * h0)) * m0 := by
      rw [e1]
      field_simp
      ring
    refine ⟨⟨3 * (h0 + h1) * q / ((2 * h1 + h0) * q + (h1 + 2 * h0)), by positivity, ?_, key⟩,
      3 * (h0 + h1) / ((2 * h1 + h0) * q + (h1 + 2 * h0)), by positivity, ?_, ?_⟩
    · rw [div_le_iff₀ hden]; nlinarith [mul_pos hh1 hq, mul_pos hh0 hq]
    · rw [div_le_iff₀ hden]; nlinarith [mul_pos hh1 hq, mul_pos hh0 hq]
    · rw [key, e1]; field_simp

/-- The slopes at the ends of a piece have the direction of the piece and at most three times its slope. -/
theorem pchipSlope_ratio {n : ℕ} {xs : ℕ → ℝ} (hx : Increasing n xs) (ys : ℕ → ℝ) {i : ℕ} (hi : i < n) :
    (∃ a, 0 ≤ a ∧ a ≤ 3 ∧ pchipSlope n xs ys i = a * pchipSecant xs ys i) ∧
    ∃ a, 0 ≤ a ∧ a ≤ 3 ∧ pchipSlope n xs ys (i + 1) = a * pchipSecant xs ys i := by
  have hh : ∀ j, j < n → 0 < xs (j + 1) - xs j := fun j hj => by linarith [hx j hj]
  unfold pchipSlope
  simp only
  by_cases h1 : n = 1
  · have : i = 0 := by omega
    rw [if_pos h1, if_pos h1, this]
    exact ⟨⟨1, by norm_num, by norm_num, by ring⟩, 1, by norm_num, by norm_num, by ring⟩
  · rw [if_neg h1, if_neg h1, if_neg (by omega : ¬ i + 1 = 0), if_neg (by omega : ¬ i = n)]
    constructor
    · split_ifs with c
      · subst c
        exact edge_ratio (hh 0 (by omega)) (hh 1 (by omega))
      · exact (inner_ratio (hh (i - 1) (by omega)) (hh i (by omega))).2
    · split_ifs with c
      · have e : n - 1 = i := by omega
        rw [e]
        exact edge_ratio (hh i hi) (hh (n - 2) (by omega))
      · rw [Nat.add_sub_cancel]
        exact (inner_ratio (hh i hi) (hh (i + 1) (by omega))).1

private lemma blend_mem {a b t : ℝ} (a0 : 0 ≤ a) (a3 : a ≤ 3) (b0 : 0 ≤ b) (b3 : b ≤ 3) (t0 : 0 ≤ t) (t1 : t ≤ 1) :
    0 ≤ 3 * t ^ 2 - 2 * t ^ 3 + a * (t ^ 3 - 2 * t ^ 2 + t) + b * (t ^ 3 - t ^ 2) ∧
    3 * t ^ 2 - 2 * t ^ 3 + a * (t ^ 3 - 2 * t ^ 2 + t) + b * (t ^ 3 - t ^ 2) ≤ 1 := by
  have w1 : 0 ≤ t * (1 - t) ^ 2 := by positivity
  have w2 : 0 ≤ t ^ 2 * (1 - t) := mul_nonneg (by positivity) (by linarith)
  have e1 : t ^ 3 - 2 * t ^ 2 + t = t * (1 - t) ^ 2 := by ring
  have e2 : t ^ 3 - t ^ 2 = -(t ^ 2 * (1 - t)) := by ring
  rw [e1, e2]
  have ha := mul_nonneg a0 w1
  have ha' := mul_le_mul_of_nonneg_right a3 w1
  have hb := mul_nonneg b0 w2
  have hb' := mul_le_mul_of_nonneg_right b3 w2
  have w3 : 0 ≤ t ^ 3 := by positivity
  have w4 : 0 ≤ (1 - t) ^ 3 := pow_nonneg (by linarith) 3
  constructor <;> nlinarith

/-- In every piece the interpolation lies between the values at its ends. -/
theorem pchip_between {n : ℕ} {xs : ℕ → ℝ} (hx : Increasing n xs) (ys : ℕ → ℝ) {x : ℝ} (hn : 0 < n) (h0 : xs 0 ≤ x) (h1 : x ≤ xs n) :
    ∃ i, i < n ∧ xs i ≤ x ∧ x ≤ xs (i + 1) ∧ min (ys i) (ys (i + 1)) ≤ pchip n xs ys x ∧ pchip n xs ys x ≤ max (ys i) (ys (i + 1)) := by
  obtain ⟨c1, c2, -⟩ := pchipCell_spec hn h0 h1
  have hc := pchipCell_lt hn xs x
  refine ⟨pchipCell n xs x, hc, c1, c2, ?_⟩
  unfold pchip
  simp only
  generalize pchipCell n xs x = i at *
  have hh : 0 < xs (i + 1) - xs i := by linarith [hx i hc]
  obtain ⟨⟨a, a0, a3, ha⟩, b, b0, b3, hb⟩ := pchipSlope_ratio hx ys hc
  obtain ⟨t, ht⟩ : ∃ t, t = (x - xs i) / (xs (i + 1) - xs i) := ⟨_, rfl⟩
  have t0 : 0 ≤ t := by rw [ht]; exact div_nonneg (by linarith) hh.le
  have t1 : t ≤ 1 := by rw [ht, div_le_one hh]; linarith
  rw [← ht, ha, hb]
  obtain ⟨q0, q1⟩ := blend_mem a0 a3 b0 b3 t0 t1
  obtain ⟨q, hq⟩ : ∃ q, q = 3 * t ^ 2 - 2 * t ^ 3 + a * (t ^ 3 - 2 * t ^ 2 + t) + b * (t ^ 3 - t ^ 2) := ⟨_, rfl⟩
  rw [← hq] at q0 q1
  have hm : pchipSecant xs ys i * (xs (i + 1) - xs i) = ys (i + 1) - ys i := by unfold pchipSecant; field_simp
  have e : hermite (xs (i + 1) - xs i) (ys i) (ys (i + 1)) (a * pchipSecant xs ys i) (b * pchipSecant xs ys i) t
      = ys i + q * (ys (i + 1) - ys i) := by
    unfold hermite
    rw [hq, ← hm]
    have : ys (i + 1) = ys i + pchipSecant xs ys i * (xs (i + 1) - xs i) := by linarith
    rw [this]
    ring
  rw [e]
  rcases le_total (ys i) (ys (i + 1)) with h | h
  · rw [min_eq_left h, max_eq_right h]
    have := mul_nonneg q0 (sub_nonneg.2 h)
    have := mul_le_mul_of_nonneg_right q1 (sub_nonneg.2 h)
    constructor <;> linarith
  · rw [min_eq_right h, max_eq_left h]
    have := mul_nonneg q0 (sub_nonneg.2 h)
    have := mul_le_mul_of_nonneg_right q1 (sub_nonneg.2 h)
    constructor <;> linarith

private lemma cell_measurable (n : ℕ) (xs : ℕ → ℝ) : Measurable (pchipCell n xs) := by
  classical
  have : Measurable fun x => Nat.findGreatest (fun i => xs i ≤ x) (n - 1) :=
    measurable_findGreatest fun k _ => measurableSet_le measurable_const measurable_id
  convert this using 2 with x
  unfold pchipCell; congr

private lemma piece_measurable (n : ℕ) (xs : ℕ → ℝ) (F : ℝ → ℕ → ℝ) (hF : ∀ i, Measurable fun x => F x i) :
    Measurable fun x => F x (pchipCell n xs x) := by
  have hp : Measurable fun p : ℝ × ℕ => F p.1 p.2 := measurable_from_prod_countable_left fun i => hF i
  exact hp.comp (measurable_id.prodMk (cell_measurable n xs))

theorem pchip_measurable (n : ℕ) (xs ys : ℕ → ℝ) : Measurable (pchip n xs ys) := by
  refine piece_measurable n xs (fun x i => hermite (xs (i + 1) - xs i) (ys i) (ys (i + 1)) (pchipSlope n xs ys i)
    (pchipSlope n xs ys (i + 1)) ((x - xs i) / (xs (i + 1) - xs i))) fun i => ?_
  generalize pchipSlope n xs ys i = a
  generalize pchipSlope n xs ys (i + 1) = b
  unfold hermite
  have ht : Measurable fun x : ℝ => (x - xs i) / (xs (i + 1) - xs i) := (measurable_id.sub_const _).div_const _
  exact (show Continuous fun t : ℝ => hermite (xs (i + 1) - xs i) (ys i) (ys (i + 1)) a b t by unfold hermite; fun_prop).measurable.comp ht

end Verif
