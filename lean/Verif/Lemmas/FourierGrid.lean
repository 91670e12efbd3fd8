import Verif.Props.DistJonesPewsey
import Mathlib.Analysis.PSeries
import Mathlib.Topology.Algebra.InfiniteSum.NatInt

/-! # Cosine coefficients from an equally spaced grid -/

set_option autoImplicit false

namespace Verif

open Real MeasureTheory Verif.Spec

/-- Mean of `cos(kθ)` over the grid. -/
noncomputable def gridCos (N : ℕ) (k : ℤ) : ℝ :=
  1 / N * ∑ j ∈ Finset.range N, cos (k * (-π + j * (2 * π / N)))

theorem gridCos_zero {N : ℕ} (hN : N ≠ 0) {k : ℤ} (hk : ¬ (N : ℤ) ∣ k) : gridCos N k = 0 := by
  unfold gridCos
  set w : ℂ := Complex.exp (2 * π * Complex.I / N) with hw
  have hprim : IsPrimitiveRoot w N := Complex.isPrimitiveRoot_exp N hN
  have hne : w ^ k ≠ 1 := fun h => hk ((hprim.zpow_eq_one_iff_dvd k).1 h)
  have hpow : (w ^ k) ^ N = 1 := by
    rw [← zpow_natCast, ← zpow_mul, mul_comm, zpow_mul, zpow_natCast, hprim.pow_eq_one, one_zpow]
  have hsum : ∑ j ∈ Finset.range N, (w ^ k) ^ j = 0 := by
    rw [geom_sum_eq hne, hpow, sub_self, zero_div]
  have e : ∀ j : ℕ, cos (k * (-π + j * (2 * π / N))) = (Complex.exp ((k * -π : ℝ) * Complex.I) * (w ^ k) ^ j).re := by
    intro j
    have : Complex.exp ((k * -π : ℝ) * Complex.I) * (w ^ k) ^ j
        = Complex.exp ((k * (-π + j * (2 * π / N)) : ℝ) * Complex.I) := by
      rw [hw, ← Complex.exp_int_mul, ← Complex.exp_nat_mul, ← Complex.exp_add]
      congr 1
      push_cast
      ring
    rw [this, Complex.exp_ofReal_mul_I_re]
  simp only [e]
  rw [← Complex.re_sum, ← Finset.mul_sum, hsum, mul_zero, Complex.zero_re, mul_zero]

theorem gridCos_abs_le (N : ℕ) (k : ℤ) : |gridCos N k| ≤ 1 := by
  unfold gridCos
  rw [abs_mul]
  rcases Nat.eq_zero_or_pos N with h | h
  · subst h; simp
  have hN : (0 : ℝ) < N := by exact_mod_cast h
  rw [abs_of_nonneg (by positivity), div_mul_eq_mul_div, one_mul, div_le_one hN]
  refine (Finset.abs_sum_le_sum_abs _ _).trans ?_
  refine (Finset.sum_le_sum fun j _ => abs_cos_le_one _).trans ?_
  simp

theorem gridCos_at_zero {N : ℕ} (hN : N ≠ 0) : gridCos N 0 = 1 := by
  unfold gridCos
  have : (N : ℝ) ≠ 0 := by exact_mod_cast hN
  simp [this]

/-- Every harmonic beyond `M` is seen by at most one of the coefficients `1..M`. -/
theorem gridCos_alias_le {N M : ℕ} (hN : 2 * M < N) (m : ℤ) :
    ∑ i ∈ Finset.range M, (|gridCos N (m + (i + 1 : ℕ))| + |gridCos N (m - (i + 1 : ℕ))|) ≤ 1 := by
  classical
  have hN0 : N ≠ 0 := by omega
  have key : ∀ k : ℤ, |gridCos N k| ≤ if (N : ℤ) ∣ k then 1 else 0 := by
    intro k
    split_ifs with h
    · exact gridCos_abs_le N k
    · rw [gridCos_zero hN0 h, abs_zero]
  have one : ∀ P : ℕ → Prop, [DecidablePred P] → (∀ i j, i < M → j < M → P i → P j → i = j) →
      ∑ i ∈ Finset.range M, (if P i then (1 : ℝ) else 0) ≤ 1 := by
    intro P _ h
    rw [Finset.sum_boole]
    have : ((Finset.range M).filter P).card ≤ 1 := by
      refine Finset.card_le_one.2 fun a ha b hb => ?_
      have ha := Finset.mem_filter.1 ha
      have hb := Finset.mem_filter.1 hb
      exact h a b (Finset.mem_range.1 ha.1) (Finset.mem_range.1 hb.1) ha.2 hb.2
    exact_mod_cast this
  have small : ∀ d : ℤ, (N : ℤ) ∣ d → |d| < N → d = 0 := fun d h1 h2 => Int.eq_zero_of_abs_lt_dvd h1 h2
  rw [Finset.sum_add_distrib]
  have hA := one (fun i => (N : ℤ) ∣ m + (i + 1 : ℕ)) fun i j hi hj h1 h2 => by
    have := small _ (dvd_sub h1 h2) (by rw [abs_lt]; push_cast; constructor <;> omega)
    push_cast at this
    omega
  have hB := one (fun i => (N : ℤ) ∣ m - (i + 1 : ℕ)) fun i j hi hj h1 h2 => by
    have := small _ (dvd_sub h1 h2) (by rw [abs_lt]; push_cast; constructor <;> omega)
    push_cast at this
    omega
  have hA' : ∑ i ∈ Finset.range M, |gridCos N (m + (i + 1 : ℕ))|
      ≤ ∑ i ∈ Finset.range M, (if (N : ℤ) ∣ m + (i + 1 : ℕ) then (1 : ℝ) else 0) :=
    Finset.sum_le_sum fun i _ => key _
  have hB' : ∑ i ∈ Finset.range M, |gridCos N (m - (i + 1 : ℕ))|
      ≤ ∑ i ∈ Finset.range M, (if (N : ℤ) ∣ m - (i + 1 : ℕ) then (1 : ℝ) else 0) :=
    Finset.sum_le_sum fun i _ => key _
  by_cases hex : ∃ i, i < M ∧ (N : ℤ) ∣ m + (i + 1 : ℕ)
  · obtain ⟨i, hi, h1⟩ := hex
    have : ∑ i ∈ Finset.range M, (if (N : ℤ) ∣ m - (i + 1 : ℕ) then (1 : ℝ) else 0) = 0 := by
      refine Finset.sum_eq_zero fun j hj => if_neg fun h2 => ?_
      have hj := Finset.mem_range.1 hj
      have := small _ (dvd_sub h1 h2) (by rw [abs_lt]; push_cast; constructor <;> omega)
      push_cast at this
      omega
    linarith
  · have : ∑ i ∈ Finset.range M, (if (N : ℤ) ∣ m + (i + 1 : ℕ) then (1 : ℝ) else 0) = 0 :=
      Finset.sum_eq_zero fun i hi => if_neg fun h1 => hex ⟨i, Finset.mem_range.1 hi, h1⟩
    linarith

/-- The coefficients by the rectangle rule on `N` points differ from the true ones, all together, by at
most the sum of the harmonics beyond `M`. -/
theorem grid_coeff_error {N M : ℕ} (hN : 2 * M < N) (a : ℕ → ℝ) (ha : Summable fun n => |a n|) :
    ∑ i ∈ Finset.range M, |2 * π / N * ∑ j ∈ Finset.range N, cos (((i + 1 : ℕ) : ℝ) * (-π + j * (2 * π / N)))
        * (1 / (2 * π) * (1 + 2 * ∑' l, a (l + 1) * cos (((l + 1 : ℕ) : ℝ) * (-π + j * (2 * π / N))))) - a (i + 1)|
      ≤ ∑' l, |a (l + M + 1)| := by
  have hN0 : N ≠ 0 := by omega
  have hNR : (N : ℝ) ≠ 0 := by exact_mod_cast hN0
  have hpi := pi_pos
  have ha1 : Summable fun l => |a (l + 1)| := (summable_nat_add_iff 1).2 ha
  have haM : Summable fun l => |a (l + M + 1)| := (summable_nat_add_iff M).2 ha1
  have hW : ∀ (k m : ℤ), |gridCos N (m + k) + gridCos N (m - k)| ≤ 2 := fun k m =>
    (abs_add_le _ _).trans (by linarith [gridCos_abs_le N (m + k), gridCos_abs_le N (m - k)])
  -- the coefficient in terms of the grid means
  have hc : ∀ i ∈ Finset.range M, 2 * π / N * ∑ j ∈ Finset.range N, cos (((i + 1 : ℕ) : ℝ) * (-π + j * (2 * π / N)))
        * (1 / (2 * π) * (1 + 2 * ∑' l, a (l + 1) * cos (((l + 1 : ℕ) : ℝ) * (-π + j * (2 * π / N))))) - a (i + 1)
      = ∑' l, a (l + M + 1) * (gridCos N (((l + M + 1 : ℕ) : ℤ) + ((i + 1 : ℕ) : ℤ)) + gridCos N (((l + M + 1 : ℕ) : ℤ) - ((i + 1 : ℕ) : ℤ))) := by
    intro i hi
    have hi := Finset.mem_range.1 hi
    have s1 : ∀ j : ℕ, Summable fun l => a (l + 1) * cos (((l + 1 : ℕ) : ℝ) * (-π + j * (2 * π / N))) := fun j =>
      Summable.of_norm_bounded ha1 fun l => by
        rw [norm_eq_abs, abs_mul]
        exact mul_le_of_le_one_right (abs_nonneg _) (abs_cos_le_one _)
    have e1 : 2 * π / N * ∑ j ∈ Finset.range N, cos (((i + 1 : ℕ) : ℝ) * (-π + j * (2 * π / N)))
        * (1 / (2 * π) * (1 + 2 * ∑' l, a (l + 1) * cos (((l + 1 : ℕ) : ℝ) * (-π + j * (2 * π / N)))))
        = gridCos N ((i + 1 : ℕ) : ℤ) + ∑' l, a (l + 1) * (gridCos N (((l + 1 : ℕ) : ℤ) + ((i + 1 : ℕ) : ℤ))
          + gridCos N (((l + 1 : ℕ) : ℤ) - ((i + 1 : ℕ) : ℤ))) := by
      have e2 : ∀ j : ℕ, cos (((i + 1 : ℕ) : ℝ) * (-π + j * (2 * π / N)))
          * (1 / (2 * π) * (1 + 2 * ∑' l, a (l + 1) * cos (((l + 1 : ℕ) : ℝ) * (-π + j * (2 * π / N)))))
          = 1 / (2 * π) * (cos (((i + 1 : ℕ) : ℝ) * (-π + j * (2 * π / N)))
            + ∑' l, a (l + 1) * (cos ((((l + 1 : ℕ) : ℝ) + ((i + 1 : ℕ) : ℝ)) * (-π + j * (2 * π / N)))
              + cos ((((l + 1 : ℕ) : ℝ) - ((i + 1 : ℕ) : ℝ)) * (-π + j * (2 * π / N))))) := by
        intro j
        have : ∑' l, a (l + 1) * (cos ((((l + 1 : ℕ) : ℝ) + ((i + 1 : ℕ) : ℝ)) * (-π + j * (2 * π / N)))
              + cos ((((l + 1 : ℕ) : ℝ) - ((i + 1 : ℕ) : ℝ)) * (-π + j * (2 * π / N))))
            = 2 * cos (((i + 1 : ℕ) : ℝ) * (-π + j * (2 * π / N))) * ∑' l, a (l + 1) * cos (((l + 1 : ℕ) : ℝ) * (-π + j * (2 * π / N))) := by
          rw [← tsum_mul_left]
          refine tsum_congr fun l => ?_
          rw [add_mul, sub_mul, cos_add, cos_sub]
          ring
        rw [this]
        ring
      simp only [e2]
      rw [← Finset.mul_sum, Finset.sum_add_distrib, ← Summable.tsum_finsetSum fun j _ => Summable.of_norm_bounded (ha1.mul_right 2) fun l => by
        rw [norm_eq_abs, abs_mul]
        refine mul_le_mul_of_nonneg_left ((abs_add_le _ _).trans ?_) (abs_nonneg _)
        linarith [abs_cos_le_one ((((l + 1 : ℕ) : ℝ) + ((i + 1 : ℕ) : ℝ)) * (-π + j * (2 * π / N))),
          abs_cos_le_one ((((l + 1 : ℕ) : ℝ) - ((i + 1 : ℕ) : ℝ)) * (-π + j * (2 * π / N)))]]
      rw [mul_add, mul_add]
      congr 1
      · unfold gridCos
        push_cast
        field_simp
      · rw [← tsum_mul_left, ← tsum_mul_left]
        refine tsum_congr fun l => ?_
        rw [← Finset.mul_sum, Finset.sum_add_distrib]
        unfold gridCos
        push_cast
        field_simp
    rw [e1, gridCos_zero hN0 (fun h => by
      have := Int.eq_zero_of_abs_lt_dvd h (by rw [abs_lt]; push_cast; constructor <;> omega)
      push_cast at this; omega), zero_add]
    have s2 : Summable fun l => a (l + 1) * (gridCos N (((l + 1 : ℕ) : ℤ) + ((i + 1 : ℕ) : ℤ))
        + gridCos N (((l + 1 : ℕ) : ℤ) - ((i + 1 : ℕ) : ℤ))) := Summable.of_norm_bounded (ha1.mul_right 2) fun l => by
      rw [norm_eq_abs, abs_mul]
      exact mul_le_mul_of_nonneg_left (hW _ _) (abs_nonneg _)
    rw [← s2.sum_add_tsum_nat_add M, Finset.sum_eq_single_of_mem i (Finset.mem_range.2 hi)]
    · rw [sub_self, gridCos_at_zero hN0, gridCos_zero hN0 (fun h => by
        have := Int.eq_zero_of_abs_lt_dvd h (by rw [abs_lt]; push_cast; constructor <;> omega)
        push_cast at this; omega)]
      ring
    · intro l hl hne
      have hl := Finset.mem_range.1 hl
      rw [gridCos_zero hN0 (fun h => by
        have := Int.eq_zero_of_abs_lt_dvd h (by rw [abs_lt]; push_cast; constructor <;> omega)
        push_cast at this; omega), gridCos_zero hN0 (fun h => by
        have := Int.eq_zero_of_abs_lt_dvd h (by rw [abs_lt]; push_cast; constructor <;> omega)
        push_cast at this; omega)]
      ring
  rw [Finset.sum_congr rfl fun i hi => by rw [hc i hi]]
  have s3 : ∀ i : ℕ, Summable fun l => |a (l + M + 1)| * (|gridCos N (((l + M + 1 : ℕ) : ℤ) + ((i + 1 : ℕ) : ℤ))|
      + |gridCos N (((l + M + 1 : ℕ) : ℤ) - ((i + 1 : ℕ) : ℤ))|) := fun i =>
    Summable.of_norm_bounded (haM.mul_right 2) fun l => by
      rw [norm_eq_abs, abs_mul, abs_abs, abs_of_nonneg (by positivity : 0 ≤ |gridCos N (((l + M + 1 : ℕ) : ℤ) + ((i + 1 : ℕ) : ℤ))|
        + |gridCos N (((l + M + 1 : ℕ) : ℤ) - ((i + 1 : ℕ) : ℤ))|)]
      refine mul_le_mul_of_nonneg_left ?_ (abs_nonneg _)
      linarith [gridCos_abs_le N (((l + M + 1 : ℕ) : ℤ) + ((i + 1 : ℕ) : ℤ)), gridCos_abs_le N (((l + M + 1 : ℕ) : ℤ) - ((i + 1 : ℕ) : ℤ))]
  have b1 : ∀ i ∈ Finset.range M, |∑' l, a (l + M + 1) * (gridCos N (((l + M + 1 : ℕ) : ℤ) + ((i + 1 : ℕ) : ℤ))
        + gridCos N (((l + M + 1 : ℕ) : ℤ) - ((i + 1 : ℕ) : ℤ)))|
      ≤ ∑' l, |a (l + M + 1)| * (|gridCos N (((l + M + 1 : ℕ) : ℤ) + ((i + 1 : ℕ) : ℤ))|
        + |gridCos N (((l + M + 1 : ℕ) : ℤ) - ((i + 1 : ℕ) : ℤ))|) := fun i _ =>
    tsum_of_norm_bounded (s3 i).hasSum fun l => by
      rw [norm_eq_abs, abs_mul]
      exact mul_le_mul_of_nonneg_left (abs_add_le _ _) (abs_nonneg _)
  refine (Finset.sum_le_sum b1).trans ?_
  rw [← Summable.tsum_finsetSum fun i _ => s3 i]
  refine Summable.tsum_le_tsum (fun l => ?_) (summable_sum fun i _ => s3 i) haM
  rw [← Finset.mul_sum]
  exact mul_le_of_le_one_right (abs_nonneg _) (gridCos_alias_le hN _)

end Verif
