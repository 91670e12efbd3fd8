import Verif.Model.Pchip
import Mathlib.Tactic.LinearCombination
import Mathlib.Tactic.Linarith
import Mathlib.Tactic.FieldSimp
import Mathlib.Tactic.Positivity
import Mathlib.Order.Monotone.Basic
import Mathlib.Algebra.Order.Field.Basic

/-! # Piecewise cubic interpolation of monotone data -/

set_option autoImplicit false

namespace Verif

theorem hermite_zero (h y0 y1 d0 d1 : ℝ) : hermite h y0 y1 d0 d1 0 = y0 := by unfold hermite; ring
theorem hermite_one (h y0 y1 d0 d1 : ℝ) : hermite h y0 y1 d0 d1 1 = y1 := by unfold hermite; ring

private lemma corner1 {s t : ℝ} (h0 : 0 ≤ s) (hst : s < t) (h1 : t ≤ 1) : 3 * s ^ 2 - 2 * s ^ 3 < 3 * t ^ 2 - 2 * t ^ 3 := by
  have : 0 < 3 * (s + t) - 2 * (s ^ 2 + s * t + t ^ 2) := by nlinarith [mul_nonneg h0 (sub_nonneg.2 h1)]
  nlinarith [mul_pos (sub_pos.2 hst) this]
private lemma corner2 {s t : ℝ} (hst : s < t) (h1 : t ≤ 1) : 1 - (1 - s) ^ 3 < 1 - (1 - t) ^ 3 := by
  have : (1 - t) ^ 3 < (1 - s) ^ 3 := pow_lt_pow_left₀ (by linarith) (by linarith) (by norm_num)
  linarith
private lemma corner3 {s t : ℝ} (h0 : 0 ≤ s) (hst : s < t) : s ^ 3 < t ^ 3 := pow_lt_pow_left₀ hst h0 (by norm_num)
private lemma corner4 {s t : ℝ} (hst : s < t) : (2 * s - 1) ^ 3 < (2 * t - 1) ^ 3 := by
  have : Odd 3 := by decide
  exact this.strictMono_pow (by linarith)

/-- A cubic piece with end slopes between 0 and three times the secant is increasing. -/
theorem hermite_strict {h y0 y1 d0 d1 m : ℝ} (hh : 0 < h) (hm : 0 < m) (hy : y1 - y0 = m * h)
    (h0 : 0 ≤ d0) (h0' : d0 ≤ 3 * m) (h1 : 0 ≤ d1) (h1' : d1 ≤ 3 * m) {s t : ℝ} (hs : 0 ≤ s) (hst : s < t) (ht : t ≤ 1) :
    hermite h y0 y1 d0 d1 s < hermite h y0 y1 d0 d1 t := by
  obtain ⟨a, ha⟩ : ∃ a, a = d0 / (3 * m) := ⟨_, rfl⟩
  obtain ⟨b, hb⟩ : ∃ b, b = d1 / (3 * m) := ⟨_, rfl⟩
  have ea : d0 = 3 * m * a := by rw [ha]; field_simp
  have eb : d1 = 3 * m * b := by rw [hb]; field_simp
  have a0 : 0 ≤ a := by rw [ha]; positivity
  have b0 : 0 ≤ b := by rw [hb]; positivity
  have a1 : a ≤ 1 := by rw [ha]; exact (div_le_one (by positivity)).2 h0'
  have b1 : b ≤ 1 := by rw [hb]; exact (div_le_one (by positivity)).2 h1'
  have ey : y1 = y0 + m * h := by linarith
  have key : hermite h y0 y1 d0 d1 t - hermite h y0 y1 d0 d1 s = m * h * (
      (1 - a) * (1 - b) * ((3 * t ^ 2 - 2 * t ^ 3) - (3 * s ^ 2 - 2 * s ^ 3))
      + a * (1 - b) * ((1 - (1 - t) ^ 3) - (1 - (1 - s) ^ 3))
      + (1 - a) * b * (t ^ 3 - s ^ 3)
      + a * b * (((2 * t - 1) ^ 3 - (2 * s - 1) ^ 3) / 2)) := by
    unfold hermite
    rw [ey, ea, eb]
    ring
  have c1 := sub_pos.2 (corner1 hs hst ht)
  have c2 := sub_pos.2 (corner2 hst ht)
  have c3 := sub_pos.2 (corner3 hs hst)
  have c4 : 0 < ((2 * t - 1) ^ 3 - (2 * s - 1) ^ 3) / 2 := half_pos (sub_pos.2 (corner4 hst))
  have hpos : 0 < (1 - a) * (1 - b) * ((3 * t ^ 2 - 2 * t ^ 3) - (3 * s ^ 2 - 2 * s ^ 3))
      + a * (1 - b) * ((1 - (1 - t) ^ 3) - (1 - (1 - s) ^ 3))
      + (1 - a) * b * (t ^ 3 - s ^ 3)
      + a * b * (((2 * t - 1) ^ 3 - (2 * s - 1) ^ 3) / 2) := by
    generalize (3 * t ^ 2 - 2 * t ^ 3) - (3 * s ^ 2 - 2 * s ^ 3) = p at c1 ⊢
    generalize (1 - (1 - t) ^ 3) - (1 - (1 - s) ^ 3) = q at c2 ⊢
    generalize t ^ 3 - s ^ 3 = r at c3 ⊢
    generalize ((2 * t - 1) ^ 3 - (2 * s - 1) ^ 3) / 2 = u at c4 ⊢
    obtain ⟨e, he⟩ : ∃ e, e = min (min p q) (min r u) := ⟨_, rfl⟩
    have e0 : 0 < e := by rw [he]; exact lt_min (lt_min c1 c2) (lt_min c3 c4)
    have e1 : e ≤ p := by rw [he]; exact (min_le_left _ _).trans (min_le_left _ _)
    have e2 : e ≤ q := by rw [he]; exact (min_le_left _ _).trans (min_le_right _ _)
    have e3 : e ≤ r := by rw [he]; exact (min_le_right _ _).trans (min_le_left _ _)
    have e4 : e ≤ u := by rw [he]; exact (min_le_right _ _).trans (min_le_right _ _)
    have w1 : 0 ≤ (1 - a) * (1 - b) := mul_nonneg (by linarith) (by linarith)
    have w2 : 0 ≤ a * (1 - b) := mul_nonneg a0 (by linarith)
    have w3 : 0 ≤ (1 - a) * b := mul_nonneg (by linarith) b0
    have w4 : 0 ≤ a * b := mul_nonneg a0 b0
    calc 0 < e := e0
      _ = (1 - a) * (1 - b) * e + a * (1 - b) * e + (1 - a) * b * e + a * b * e := by ring
      _ ≤ _ := by
        have := mul_le_mul_of_nonneg_left e1 w1
        have := mul_le_mul_of_nonneg_left e2 w2
        have := mul_le_mul_of_nonneg_left e3 w3
        have := mul_le_mul_of_nonneg_left e4 w4
        linarith
  have := mul_pos (mul_pos hm hh) hpos
  linarith

/-- A cubic piece with flat ends and equal end values is constant. -/
theorem hermite_flat (h y t : ℝ) : hermite h y y 0 0 t = y := by unfold hermite; ring

/-- Distance of a cubic piece from the straight line. -/
theorem hermite_line {h y0 y1 d0 d1 m e : ℝ} (hh : 0 ≤ h) (hy : y1 - y0 = m * h) (h0 : |d0 - m| ≤ e) (h1 : |d1 - m| ≤ e)
    {t : ℝ} (ht : 0 ≤ t) (ht' : t ≤ 1) : |hermite h y0 y1 d0 d1 t - (y0 + m * h * t)| ≤ h * e / 4 := by
  have ey : y1 = y0 + m * h := by linarith
  have key : hermite h y0 y1 d0 d1 t - (y0 + m * h * t)
      = h * ((d0 - m) * (t * (1 - t) ^ 2) - (d1 - m) * (t ^ 2 * (1 - t))) := by
    unfold hermite
    rw [ey]
    ring
  rw [key, abs_mul, abs_of_nonneg hh]
  have w1 : 0 ≤ t * (1 - t) ^ 2 := by positivity
  have w2 : 0 ≤ t ^ 2 * (1 - t) := mul_nonneg (by positivity) (by linarith)
  have he : 0 ≤ e := (abs_nonneg _).trans h0
  have : |(d0 - m) * (t * (1 - t) ^ 2) - (d1 - m) * (t ^ 2 * (1 - t))| ≤ e * (t * (1 - t) ^ 2) + e * (t ^ 2 * (1 - t)) := by
    refine (abs_sub _ _).trans ?_
    rw [abs_mul (d0 - m), abs_mul (d1 - m), abs_of_nonneg w1, abs_of_nonneg w2]
    exact add_le_add (mul_le_mul_of_nonneg_right h0 w1) (mul_le_mul_of_nonneg_right h1 w2)
  have h2 : t * (1 - t) ^ 2 + t ^ 2 * (1 - t) ≤ 1 / 4 := by nlinarith [sq_nonneg (2 * t - 1)]
  have h3 : e * (t * (1 - t) ^ 2) + e * (t ^ 2 * (1 - t)) ≤ e * (1 / 4) := by rw [← mul_add]; exact mul_le_mul_of_nonneg_left h2 he
  calc _ ≤ h * (e * (1 / 4)) := mul_le_mul_of_nonneg_left (this.trans h3) hh
    _ = _ := by ring

theorem pchipEdge_bounds {h0 h1 m0 m1 : ℝ} (hh0 : 0 < h0) (hh1 : 0 < h1) (hm0 : 0 ≤ m0) (hm1 : 0 ≤ m1) :
    0 ≤ pchipEdge h0 h1 m0 m1 ∧ pchipEdge h0 h1 m0 m1 ≤ 3 * m0 := by
  unfold pchipEdge
  simp only
  split_ifs with c1 c2
  · exact ⟨le_refl _, by linarith⟩
  · exact ⟨by linarith, le_refl _⟩
  · rw [not_not] at c1
    constructor
    · rcases hm0.eq_or_lt with e | e
      · rw [← e, sign_zero, sign_eq_zero_iff] at c1
        rw [← e]; exact c1.ge
      · rw [sign_pos e, sign_eq_one_iff] at c1
        exact c1.le
    · rw [div_le_iff₀ (by linarith)]
      nlinarith [mul_nonneg hh0.le hm1, mul_nonneg hh1.le hm0, mul_nonneg hh0.le hm0]

theorem pchipInner_bounds {h0 h1 m0 m1 : ℝ} (hh0 : 0 < h0) (hh1 : 0 < h1) (hm0 : 0 ≤ m0) (hm1 : 0 ≤ m1) :
    0 ≤ pchipInner h0 h1 m0 m1 ∧ pchipInner h0 h1 m0 m1 ≤ 3 * m0 ∧ pchipInner h0 h1 m0 m1 ≤ 3 * m1 := by
  unfold pchipInner
  split_ifs with c
  · exact ⟨le_refl _, by linarith, by linarith⟩
  · push Not at c
    have p0 : 0 < m0 := lt_of_le_of_ne hm0 (Ne.symm c.2.1)
    have p1 : 0 < m1 := lt_of_le_of_ne hm1 (Ne.symm c.2.2)
    have e : 1 / (((2 * h1 + h0) / m0 + (h1 + 2 * h0) / m1) / ((2 * h1 + h0) + (h1 + 2 * h0)))
        = 3 * (h0 + h1) * (m0 * m1) / ((2 * h1 + h0) * m1 + (h1 + 2 * h0) * m0) := by
      field_simp
      ring
    rw [e]
    have hd : 0 < (2 * h1 + h0) * m1 + (h1 + 2 * h0) * m0 := by positivity
    refine ⟨by positivity, ?_, ?_⟩
    · rw [div_le_iff₀ hd]
      nlinarith [mul_pos (mul_pos hh1 p0) p1, mul_pos (mul_pos hh0 p0) p0, mul_pos (mul_pos hh1 p0) p0]
    · rw [div_le_iff₀ hd]
      nlinarith [mul_pos (mul_pos hh0 p0) p1, mul_pos (mul_pos hh0 p1) p1, mul_pos (mul_pos hh1 p1) p1]

/-- The nodes are increasing. -/
def Increasing (n : ℕ) (xs : ℕ → ℝ) : Prop := ∀ i, i < n → xs i < xs (i + 1)

theorem Increasing.lt {n : ℕ} {xs : ℕ → ℝ} (h : Increasing n xs) {i j : ℕ} (hij : i < j) (hj : j ≤ n) : xs i < xs j := by
  induction j with
  | zero => omega
  | succ k ih =>
    rcases Nat.lt_succ_iff_lt_or_eq.1 hij with h1 | h1
    · exact (ih h1 (by omega)).trans (h k (by omega))
    · rw [h1]; exact h k (by omega)

theorem pchipSecant_nonneg {n : ℕ} {xs ys : ℕ → ℝ} (hx : Increasing n xs) {i : ℕ} (hi : i < n) (hy : ys i ≤ ys (i + 1)) :
    0 ≤ pchipSecant xs ys i := div_nonneg (by linarith) (by linarith [hx i hi])

/-- Slopes for monotone data: between 0 and three times each neighbouring secant. -/
theorem pchipSlope_bounds {n : ℕ} (hn : 0 < n) {xs ys : ℕ → ℝ} (hx : Increasing n xs) (hy : ∀ i, i < n → ys i ≤ ys (i + 1))
    {i : ℕ} (hi : i < n) :
    (0 ≤ pchipSlope n xs ys i ∧ pchipSlope n xs ys i ≤ 3 * pchipSecant xs ys i) ∧
    (0 ≤ pchipSlope n xs ys (i + 1) ∧ pchipSlope n xs ys (i + 1) ≤ 3 * pchipSecant xs ys i) := by
  have hm : ∀ j, j < n → 0 ≤ pchipSecant xs ys j := fun j hj => pchipSecant_nonneg hx hj (hy j hj)
  have hh : ∀ j, j < n → 0 < xs (j + 1) - xs j := fun j hj => by linarith [hx j hj]
  unfold pchipSlope
  simp only
  by_cases h1 : n = 1
  · have : i = 0 := by omega
    rw [if_pos h1, if_pos h1, this]
    have := hm 0 (by omega)
    exact ⟨⟨this, by linarith⟩, this, by linarith⟩
  · rw [if_neg h1, if_neg h1, if_neg (by omega : ¬ i + 1 = 0), if_neg (by omega : ¬ i = n)]
    constructor
    · split_ifs with c
      · subst c
        exact pchipEdge_bounds (hh 0 (by omega)) (hh 1 (by omega)) (hm 0 (by omega)) (hm 1 (by omega))
      · have := pchipInner_bounds (hh (i - 1) (by omega)) (hh i (by omega)) (hm (i - 1) (by omega)) (hm i (by omega))
        exact ⟨this.1, this.2.2⟩
    · split_ifs with c
      · have e : n - 1 = i := by omega
        rw [e]
        exact pchipEdge_bounds (hh i hi) (hh (n - 2) (by omega)) (hm i hi) (hm (n - 2) (by omega))
      · have := pchipInner_bounds (hh i hi) (hh (i + 1) (by omega)) (hm i hi) (hm (i + 1) (by omega))
        rw [Nat.add_sub_cancel]
        exact ⟨this.1, this.2.1⟩

theorem pchipCell_lt {n : ℕ} (hn : 0 < n) (xs : ℕ → ℝ) (x : ℝ) : pchipCell n xs x < n := by
  have e : pchipCell n xs x ≤ n - 1 := by unfold pchipCell; exact Nat.findGreatest_le _
  omega

/-- The piece used at a point of the range of the nodes contains the point. -/
theorem pchipCell_spec {n : ℕ} (hn : 0 < n) {xs : ℕ → ℝ} {x : ℝ} (h0 : xs 0 ≤ x) (h1 : x ≤ xs n) :
    xs (pchipCell n xs x) ≤ x ∧ x ≤ xs (pchipCell n xs x + 1) ∧
      (pchipCell n xs x + 1 < n → x < xs (pchipCell n xs x + 1)) := by
  classical
  have hc : pchipCell n xs x < n := pchipCell_lt hn xs x
  have hle : xs (pchipCell n xs x) ≤ x := by
    have := Nat.findGreatest_spec (P := fun i => xs i ≤ x) (Nat.zero_le (n - 1)) h0
    convert this using 2
    unfold pchipCell; congr
  have hgt : pchipCell n xs x + 1 < n → x < xs (pchipCell n xs x + 1) := fun h => by
    by_contra hx
    have := Nat.le_findGreatest (P := fun i => xs i ≤ x) (by omega : pchipCell n xs x + 1 ≤ n - 1) (not_lt.1 hx)
    have e : pchipCell n xs x = Nat.findGreatest (fun i => xs i ≤ x) (n - 1) := by unfold pchipCell; congr
    omega
  refine ⟨hle, ?_, hgt⟩
  by_cases h : pchipCell n xs x + 1 < n
  · exact (hgt h).le
  · have : pchipCell n xs x + 1 = n := by omega
    rw [this]; exact h1

theorem pchipCell_eq {n : ℕ} {xs : ℕ → ℝ} (hx : Increasing n xs) {x : ℝ} {i : ℕ} (hi : i < n)
    (h0 : xs i ≤ x) (h1 : x < xs (i + 1) ∨ i + 1 = n) : pchipCell n xs x = i := by
  classical
  have hc : pchipCell n xs x < n := pchipCell_lt (by omega) xs x
  have e : pchipCell n xs x = Nat.findGreatest (fun i => xs i ≤ x) (n - 1) := by unfold pchipCell; congr
  have h2 : i ≤ pchipCell n xs x := by
    rw [e]; exact Nat.le_findGreatest (by omega) h0
  by_contra hne
  have h3 : i < pchipCell n xs x := by omega
  rcases h1 with h1 | h1
  · have h4 : xs (pchipCell n xs x) ≤ x := by
      have := Nat.findGreatest_spec (P := fun i => xs i ≤ x) (by omega : i ≤ n - 1) h0
      rw [e]; exact this
    have : xs (i + 1) ≤ xs (pchipCell n xs x) := by
      rcases Nat.eq_or_lt_of_le (Nat.succ_le_of_lt h3) with h | h
      · rw [← h]
      · exact (hx.lt h (by omega)).le
    linarith
  · omega

/-- The interpolant passes through the data. -/
theorem pchip_node {n : ℕ} (hn : 0 < n) {xs : ℕ → ℝ} (hx : Increasing n xs) (ys : ℕ → ℝ) {i : ℕ} (hi : i ≤ n) :
    pchip n xs ys (xs i) = ys i := by
  unfold pchip
  simp only
  rcases Nat.lt_or_ge i n with h | h
  · rw [pchipCell_eq hx h (le_refl _) (Or.inl (hx i h)), sub_self, zero_div, hermite_zero]
  · have hin : i = n := by omega
    have e : pchipCell n xs (xs i) = n - 1 := pchipCell_eq hx (by omega) (by
      rw [hin]; exact (hx.lt (by omega) (le_refl n)).le) (Or.inr (by omega))
    rw [e, show n - 1 + 1 = n by omega, hin, div_self, hermite_one]
    have := hx (n - 1) (by omega)
    rw [show n - 1 + 1 = n by omega] at this
    linarith

private lemma cell_pos {n : ℕ} {xs : ℕ → ℝ} (hx : Increasing n xs) {i : ℕ} (hi : i < n) {x : ℝ} (h0 : xs i ≤ x) (h1 : x ≤ xs (i + 1)) :
    0 ≤ (x - xs i) / (xs (i + 1) - xs i) ∧ (x - xs i) / (xs (i + 1) - xs i) ≤ 1 := by
  have := hx i hi
  exact ⟨div_nonneg (by linarith) (by linarith), (div_le_one (by linarith)).2 (by linarith)⟩

/-- Values inside piece `i`, for non-decreasing data. -/
theorem pchip_cell_bounds {n : ℕ} {xs ys : ℕ → ℝ} (hx : Increasing n xs) (hy : ∀ i, i < n → ys i ≤ ys (i + 1))
    {i : ℕ} (hi : i < n) {t : ℝ} (h0 : 0 ≤ t) (h1 : t ≤ 1) :
    ys i ≤ hermite (xs (i + 1) - xs i) (ys i) (ys (i + 1)) (pchipSlope n xs ys i) (pchipSlope n xs ys (i + 1)) t ∧
    hermite (xs (i + 1) - xs i) (ys i) (ys (i + 1)) (pchipSlope n xs ys i) (pchipSlope n xs ys (i + 1)) t ≤ ys (i + 1) := by
  obtain ⟨⟨a0, a1⟩, b0, b1⟩ := pchipSlope_bounds (by omega) hx hy hi
  have hh : 0 < xs (i + 1) - xs i := by linarith [hx i hi]
  have hm : ys (i + 1) - ys i = pchipSecant xs ys i * (xs (i + 1) - xs i) := by
    unfold pchipSecant; field_simp
  rcases (pchipSecant_nonneg hx hi (hy i hi)).eq_or_lt with e | e
  · rw [← e] at a1 b1 hm
    have e1 : pchipSlope n xs ys i = 0 := by linarith
    have e2 : pchipSlope n xs ys (i + 1) = 0 := by linarith
    have e3 : ys (i + 1) = ys i := by linarith
    rw [e1, e2, e3, hermite_flat]
    exact ⟨le_refl _, le_refl _⟩
  · constructor
    · rcases h0.eq_or_lt with z | z
      · rw [← z, hermite_zero]
      · have := hermite_strict hh e hm a0 a1 b0 b1 (le_refl 0) z h1
        rw [hermite_zero] at this
        exact this.le
    · rcases h1.eq_or_lt with z | z
      · rw [z, hermite_one]
      · have := hermite_strict hh e hm a0 a1 b0 b1 h0 z (le_refl 1)
        rw [hermite_one] at this
        exact this.le

private lemma mono_nat {n : ℕ} {ys : ℕ → ℝ} (hy : ∀ i, i < n → ys i ≤ ys (i + 1)) {i j : ℕ} (hij : i ≤ j) (hj : j ≤ n) :
    ys i ≤ ys j := by
  induction j with
  | zero => rw [Nat.le_zero.1 hij]
  | succ k ih =>
    rcases Nat.lt_or_ge k i with h | h
    · rw [show i = k + 1 by omega]
    · exact (ih h (by omega)).trans (hy k (by omega))

/-- Non-decreasing data give a non-decreasing interpolant. -/
theorem pchip_mono {n : ℕ} (hn : 0 < n) {xs ys : ℕ → ℝ} (hx : Increasing n xs) (hy : ∀ i, i < n → ys i ≤ ys (i + 1))
    {x y : ℝ} (h0 : xs 0 ≤ x) (hxy : x ≤ y) (h1 : y ≤ xs n) : pchip n xs ys x ≤ pchip n xs ys y := by
  obtain ⟨a1, a2, a3⟩ := pchipCell_spec hn h0 (hxy.trans h1)
  obtain ⟨b1, b2, b3⟩ := pchipCell_spec hn (h0.trans hxy) h1
  have ha := pchipCell_lt hn xs x
  have hb := pchipCell_lt hn xs y
  unfold pchip
  simp only
  generalize pchipCell n xs x = i at *
  generalize pchipCell n xs y = j at *
  have hij : i ≤ j := by
    by_contra hc
    have h2 := b3 (by omega)
    have : xs (j + 1) ≤ xs i := by
      rcases Nat.eq_or_lt_of_le (by omega : j + 1 ≤ i) with h | h
      · rw [h]
      · exact (hx.lt h (by omega)).le
    linarith
  obtain ⟨s0, s1⟩ := cell_pos hx ha a1 a2
  obtain ⟨t0, t1⟩ := cell_pos hx hb b1 b2
  rcases Nat.eq_or_lt_of_le hij with h | h
  · subst h
    obtain ⟨⟨p0, p1⟩, q0, q1⟩ := pchipSlope_bounds hn hx hy ha
    have hh : 0 < xs (i + 1) - xs i := by linarith [hx i ha]
    have hm : ys (i + 1) - ys i = pchipSecant xs ys i * (xs (i + 1) - xs i) := by unfold pchipSecant; field_simp
    rcases (pchipSecant_nonneg hx ha (hy i ha)).eq_or_lt with e | e
    · rw [← e] at p1 q1 hm
      rw [show pchipSlope n xs ys i = 0 by linarith, show pchipSlope n xs ys (i + 1) = 0 by linarith,
        show ys (i + 1) = ys i by linarith, hermite_flat, hermite_flat]
    · rcases hxy.eq_or_lt with z | z
      · rw [z]
      · exact (hermite_strict hh e hm p0 p1 q0 q1 s0 ((div_lt_div_iff_of_pos_right hh).2 (by linarith)) t1).le
  · exact (pchip_cell_bounds hx hy ha s0 s1).2.trans ((mono_nat hy (by omega) (by omega)).trans (pchip_cell_bounds hx hy hb t0 t1).1)

/-- Increasing data give an increasing interpolant. -/
theorem pchip_strict {n : ℕ} (hn : 0 < n) {xs ys : ℕ → ℝ} (hx : Increasing n xs) (hy : Increasing n ys)
    {x y : ℝ} (h0 : xs 0 ≤ x) (hxy : x < y) (h1 : y ≤ xs n) : pchip n xs ys x < pchip n xs ys y := by
  have hy' : ∀ i, i < n → ys i ≤ ys (i + 1) := fun i hi => (hy i hi).le
  obtain ⟨a1, a2, a3⟩ := pchipCell_spec hn h0 (hxy.le.trans h1)
  have ha := pchipCell_lt hn xs x
  obtain ⟨i, hi⟩ : ∃ i, pchipCell n xs x = i := ⟨_, rfl⟩
  rw [hi] at a1 a2 a3 ha
  obtain ⟨⟨p0, p1⟩, q0, q1⟩ := pchipSlope_bounds hn hx hy' ha
  have hh : 0 < xs (i + 1) - xs i := by linarith [hx i ha]
  have hm : ys (i + 1) - ys i = pchipSecant xs ys i * (xs (i + 1) - xs i) := by unfold pchipSecant; field_simp
  have hmp : 0 < pchipSecant xs ys i := div_pos (by linarith [hy i ha]) hh
  -- a point strictly after `x`, in the same closed cell
  obtain ⟨z, hz⟩ : ∃ z, z = min y (xs (i + 1)) := ⟨_, rfl⟩
  have hxz : x < z := by
    rw [hz]
    refine lt_min hxy ?_
    by_cases c : i + 1 < n
    · exact a3 c
    · rw [show i + 1 = n by omega]; linarith
  have hzy : z ≤ y := by rw [hz]; exact min_le_left _ _
  have hz1 : z ≤ xs (i + 1) := by rw [hz]; exact min_le_right _ _
  refine lt_of_lt_of_le ?_ (pchip_mono hn hx hy' (h0.trans hxz.le) hzy h1)
  obtain ⟨s0, s1⟩ := cell_pos hx ha a1 a2
  obtain ⟨t0, t1⟩ := cell_pos hx ha (a1.trans hxz.le) hz1
  have lhs : pchip n xs ys x = hermite (xs (i + 1) - xs i) (ys i) (ys (i + 1)) (pchipSlope n xs ys i) (pchipSlope n xs ys (i + 1))
      ((x - xs i) / (xs (i + 1) - xs i)) := by unfold pchip; simp only [hi]
  have rhs : pchip n xs ys z = hermite (xs (i + 1) - xs i) (ys i) (ys (i + 1)) (pchipSlope n xs ys i) (pchipSlope n xs ys (i + 1))
      ((z - xs i) / (xs (i + 1) - xs i)) := by
    rcases hz1.eq_or_lt with e | e
    · rw [e, pchip_node hn hx ys (by omega), div_self hh.ne', hermite_one]
    · unfold pchip
      simp only
      rw [pchipCell_eq hx ha (a1.trans hxz.le) (Or.inl e)]
  rw [lhs, rhs]
  exact hermite_strict hh hmp hm p0 p1 q0 q1 s0 ((div_lt_div_iff_of_pos_right hh).2 (by linarith)) t1

/-- The interpolant of non-decreasing data stays between the first and the last value. -/
theorem pchip_range {n : ℕ} (hn : 0 < n) {xs ys : ℕ → ℝ} (hx : Increasing n xs) (hy : ∀ i, i < n → ys i ≤ ys (i + 1))
    {x : ℝ} (h0 : xs 0 ≤ x) (h1 : x ≤ xs n) : ys 0 ≤ pchip n xs ys x ∧ pchip n xs ys x ≤ ys n := by
  have a := pchip_mono hn hx hy (le_refl _) h0 h1
  have b := pchip_mono hn hx hy h0 h1 (le_refl _)
  rw [pchip_node hn hx ys (by omega)] at a b
  exact ⟨a, b⟩

end Verif
