import Verif.Model.DistJPAsym
import Verif.Lemmas.JonesPewsey
import Verif.Lemmas.Pchip
import Mathlib.Analysis.SpecialFunctions.Integrals.Basic
import Mathlib.Analysis.Real.Pi.Bounds

/-! # The asymmetric Jones-Pewsey kernel and its table -/

set_option autoImplicit false

namespace Verif

open Real MeasureTheory

/-! ## Linear interpolation -/

theorem npInterp_cell {n : ℕ} {xs : ℕ → ℝ} (hx : Increasing n xs) (ys : ℕ → ℝ) (l r : ℝ) {i : ℕ} (hi : i < n) {x : ℝ}
    (h0 : xs i ≤ x) (h1 : x ≤ xs (i + 1)) :
    npInterp n xs ys l r x = (ys (i + 1) - ys i) / (xs (i + 1) - xs i) * (x - xs i) + ys i := by
  have hle : ∀ j, j ≤ n → xs 0 ≤ xs j := fun j hj => by
    rcases Nat.eq_zero_or_pos j with h | h
    · rw [h]
    · exact (hx.lt h hj).le
  have hge : ∀ j, j ≤ n → xs j ≤ xs n := fun j hj => by
    rcases Nat.eq_or_lt_of_le hj with h | h
    · rw [h]
    · exact (hx.lt h le_rfl).le
  unfold npInterp
  rw [if_neg (not_lt.2 ((hle i hi.le).trans h0)), if_neg (not_lt.2 (h1.trans (hge (i + 1) hi)))]
  simp only
  rcases h1.lt_or_eq with h | h
  · rw [pchipCell_eq hx hi h0 (Or.inl h)]
  · rcases Nat.eq_or_lt_of_le (Nat.succ_le_of_lt hi) with hn | hn
    · rw [pchipCell_eq hx hi h0 (Or.inr hn)]
    · rw [pchipCell_eq hx (i := i + 1) hn h.ge (Or.inl (by rw [h]; exact hx (i + 1) hn)), h]
      have : xs (i + 1) - xs i ≠ 0 := by have := hx i hi; linarith
      field_simp
      ring

theorem npInterp_div {n : ℕ} (hn : 0 < n) {xs : ℕ → ℝ} (hx : Increasing n xs) (ys : ℕ → ℝ) (c l r : ℝ) {x : ℝ}
    (h0 : xs 0 ≤ x) (h1 : x ≤ xs n) : npInterp n xs (fun k => ys k / c) l r x = npInterp n xs ys l r x / c := by
  obtain ⟨a, b, -⟩ := pchipCell_spec hn h0 h1
  have hc := pchipCell_lt hn xs x
  rw [npInterp_cell hx _ l r hc a b, npInterp_cell hx _ l r hc a b]
  ring

/-- A function that is monotone on every cell of a grid is monotone on the range of the grid. -/
theorem mono_of_cells {n : ℕ} (hn : 0 < n) {xs : ℕ → ℝ} (hx : Increasing n xs) {f : ℝ → ℝ}
    (hf : ∀ i, i < n → MonotoneOn f (Set.Icc (xs i) (xs (i + 1)))) {a b : ℝ} (h0 : xs 0 ≤ a) (hab : a ≤ b) (h1 : b ≤ xs n) :
    f a ≤ f b := by
  obtain ⟨a1, a2, -⟩ := pchipCell_spec hn h0 (hab.trans h1)
  obtain ⟨b1, b2, -⟩ := pchipCell_spec hn (h0.trans hab) h1
  have ha := pchipCell_lt hn xs a
  have hb := pchipCell_lt hn xs b
  obtain ⟨i, hi⟩ : ∃ i, i = pchipCell n xs a := ⟨_, rfl⟩
  obtain ⟨j, hj⟩ : ∃ j, j = pchipCell n xs b := ⟨_, rfl⟩
  rw [← hi] at a1 a2 ha
  rw [← hj] at b1 b2 hb
  rcases Nat.lt_trichotomy i j with h | h | h
  · have key : ∀ k, i + 1 ≤ k → k ≤ j → f (xs (i + 1)) ≤ f (xs k) := by
      intro k hk
      induction k, hk using Nat.le_induction with
      | base => intro _; exact le_rfl
      | succ k hk ih =>
        intro hkj
        have hlt := hx k (by omega)
        exact (ih (by omega)).trans (hf k (by omega) ⟨le_rfl, hlt.le⟩ ⟨hlt.le, le_rfl⟩ hlt.le)
    have hli := hx i ha
    have hlj := hx j hb
    exact (hf i ha ⟨a1, a2⟩ ⟨hli.le, le_rfl⟩ a2).trans ((key j h le_rfl).trans (hf j hb ⟨le_rfl, hlj.le⟩ ⟨b1, b2⟩ b1))
  · subst h
    exact hf i ha ⟨a1, a2⟩ ⟨b1, b2⟩ hab
  · have : xs (j + 1) ≤ xs i := by
      rcases Nat.eq_or_lt_of_le (Nat.succ_le_of_lt h) with e | e
      · exact (congrArg xs e).le
      · exact (hx.lt e ha.le).le
    have hab' : a = b := le_antisymm hab (b2.trans (this.trans a1))
    rw [hab']

/-! ## Trapezoid sums of a function of bounded variation -/

theorem jpaGrid_zero (N : ℕ) : jpaGrid N 0 = 0 := by unfold jpaGrid; simp
theorem jpaGrid_last {N : ℕ} (hN : 0 < N) : jpaGrid N N = 2 * π := by
  have : (N : ℝ) ≠ 0 := by positivity
  unfold jpaGrid
  field_simp
theorem jpaGrid_step (N j : ℕ) : jpaGrid N (j + 1) - jpaGrid N j = 2 * π / N := by unfold jpaGrid; push_cast; ring
theorem jpaGrid_increasing {N : ℕ} (hN : 0 < N) : Increasing N (jpaGrid N) := fun i _ => by
  have := jpaGrid_step N i
  have : 0 < 2 * π / N := by positivity
  linarith
theorem jpaGrid_mem {N : ℕ} (hN : 0 < N) {j : ℕ} (hj : j ≤ N) : 0 ≤ jpaGrid N j ∧ jpaGrid N j ≤ 2 * π := by
  refine ⟨by unfold jpaGrid; positivity, ?_⟩
  rw [← jpaGrid_last hN]
  unfold jpaGrid
  gcongr

theorem jpaTrap_zero (N : ℕ) (f : ℕ → ℝ) : jpaTrap N f 0 = 0 := by simp [jpaTrap]
theorem jpaTrap_succ (N : ℕ) (f : ℕ → ℝ) (k : ℕ) :
    jpaTrap N f (k + 1) = jpaTrap N f k + 1 / 2 * (f k + f (k + 1)) * (2 * π / N) := by
  unfold jpaTrap
  rw [Finset.sum_range_succ]

/-- The interpolated running sums of the values `f`. -/
noncomputable def trapLin (N : ℕ) (f : ℕ → ℝ) (phi : ℝ) : ℝ := npInterp N (jpaGrid N) (jpaTrap N f) 0 1 phi

theorem npInterp_node {n : ℕ} (hn : 0 < n) {xs : ℕ → ℝ} (hx : Increasing n xs) (ys : ℕ → ℝ) (l r : ℝ) {k : ℕ} (hk : k ≤ n) :
    npInterp n xs ys l r (xs k) = ys k := by
  rcases Nat.eq_or_lt_of_le hk with h | h
  · obtain ⟨m, rfl⟩ : ∃ m, n = m + 1 := ⟨n - 1, by omega⟩
    rw [h, npInterp_cell hx ys l r (i := m) (by omega) (hx m (by omega)).le le_rfl]
    have : xs (m + 1) - xs m ≠ 0 := by have := hx m (by omega); linarith
    field_simp
    ring
  · rw [npInterp_cell hx ys l r h le_rfl (hx k h).le]; ring

theorem trapLin_zero {N : ℕ} (hN : 0 < N) (f : ℕ → ℝ) : trapLin N f 0 = 0 := by
  have := npInterp_node hN (jpaGrid_increasing hN) (jpaTrap N f) 0 1 (k := 0) (by omega)
  rw [jpaGrid_zero, jpaTrap_zero] at this
  exact this

theorem trapLin_last {N : ℕ} (hN : 0 < N) (f : ℕ → ℝ) : trapLin N f (2 * π) = jpaTrap N f N := by
  have := npInterp_node hN (jpaGrid_increasing hN) (jpaTrap N f) 0 1 (k := N) le_rfl
  rw [jpaGrid_last hN] at this
  exact this

theorem trapLin_sub {N : ℕ} (hN : 0 < N) (f : ℕ → ℝ) {i : ℕ} (hi : i < N) {a b : ℝ} (ha : a ∈ Set.Icc (jpaGrid N i) (jpaGrid N (i + 1)))
    (hb : b ∈ Set.Icc (jpaGrid N i) (jpaGrid N (i + 1))) :
    trapLin N f b - trapLin N f a = (b - a) * (1 / 2 * (f i + f (i + 1))) := by
  have hp : (0 : ℝ) < 2 * π / N := by positivity
  unfold trapLin
  rw [npInterp_cell (jpaGrid_increasing hN) _ 0 1 hi ha.1 ha.2, npInterp_cell (jpaGrid_increasing hN) _ 0 1 hi hb.1 hb.2,
    jpaTrap_succ, jpaGrid_step]
  field_simp
  ring

/-- The interpolated running sums of positive values increase. -/
theorem trapLin_strict {N : ℕ} (hN : 0 < N) {f : ℕ → ℝ} (hf : ∀ j, j ≤ N → 0 < f j) {a b : ℝ} (h0 : 0 ≤ a) (hab : a < b) (h1 : b ≤ 2 * π) :
    trapLin N f a < trapLin N f b := by
  have hx := jpaGrid_increasing hN
  obtain ⟨m, hm0, hm⟩ : ∃ m : ℝ, 0 < m ∧ ∀ j, j ≤ N → m ≤ f j := by
    have hne : (Finset.range (N + 1)).Nonempty := ⟨0, by simp⟩
    refine ⟨(Finset.range (N + 1)).inf' hne f, (Finset.lt_inf'_iff _).2 fun j hj => hf j (by simpa [Nat.lt_succ_iff] using hj), fun j hj =>
      Finset.inf'_le (f := f) (by simpa using by omega)⟩
  have := mono_of_cells hN hx (f := fun t => trapLin N f t - m * t) (fun i hi a ha b hb hab => by
    have e := trapLin_sub hN f hi ha hb
    have m1 := hm i hi.le
    have m2 := hm (i + 1) hi
    show trapLin N f a - m * a ≤ trapLin N f b - m * b
    nlinarith only [e, m1, m2, hab]) (a := a) (b := b) (by rw [jpaGrid_zero]; exact h0) hab.le (by rw [jpaGrid_last hN]; exact h1)
  nlinarith only [this, hm0, hab]

/-- Distance of the interpolated running sums from the integral: `V` bounds the variation of `g`. -/
theorem trapLin_error {g V : ℝ → ℝ} (hc : Continuous g) (hV : ∀ s t, 0 ≤ s → s ≤ t → t ≤ 2 * π → |g t - g s| ≤ V t - V s)
    {N : ℕ} (hN : 0 < N) {f : ℕ → ℝ} (hf : ∀ j, j ≤ N → f j = g (jpaGrid N j)) : ∃ W : ℝ → ℝ, W (2 * π) - W 0 = π / N * (V (2 * π) - V 0) ∧
      ∀ a b, 0 ≤ a → a ≤ b → b ≤ 2 * π → |trapLin N f b - trapLin N f a - ∫ t in a..b, g t| ≤ W b - W a := by
  have hx := jpaGrid_increasing hN
  have hNR : (0 : ℝ) < N := by positivity
  obtain ⟨W, hW⟩ : ∃ W : ℝ → ℝ, W = npInterp N (jpaGrid N) (fun j => π / N * V (jpaGrid N j)) 0 1 := ⟨_, rfl⟩
  have hcell : ∀ i, i < N → ∀ a ∈ Set.Icc (jpaGrid N i) (jpaGrid N (i + 1)), ∀ b ∈ Set.Icc (jpaGrid N i) (jpaGrid N (i + 1)), a ≤ b →
      |trapLin N f b - trapLin N f a - ∫ t in a..b, g t| ≤ W b - W a := by
    intro i hi a ha b hb hab
    obtain ⟨g0, -⟩ := jpaGrid_mem hN hi.le
    obtain ⟨-, g1⟩ := jpaGrid_mem hN (show i + 1 ≤ N from hi)
    have eW : W b - W a = (b - a) * (1 / 2 * (V (jpaGrid N (i + 1)) - V (jpaGrid N i))) := by
      rw [hW, npInterp_cell hx _ 0 1 hi ha.1 ha.2, npInterp_cell hx _ 0 1 hi hb.1 hb.2, jpaGrid_step]
      field_simp
      ring
    obtain ⟨p, hp⟩ : ∃ p, p = jpaGrid N i := ⟨_, rfl⟩
    obtain ⟨q, hq⟩ : ∃ q, q = jpaGrid N (i + 1) := ⟨_, rfl⟩
    rw [trapLin_sub hN f hi ha hb, eW, hf i hi.le, hf (i + 1) hi]
    rw [← hp, ← hq] at ha hb ⊢
    rw [← hp] at g0
    rw [← hq] at g1
    have hb' : ∀ t, a ≤ t → t ≤ b → 1 / 2 * (g p + g q) - 1 / 2 * (V q - V p) ≤ g t ∧ g t ≤ 1 / 2 * (g p + g q) + 1 / 2 * (V q - V p) := by
      intro t h0 h1
      have e1 := abs_le.1 (hV p t g0 (ha.1.trans h0) (by linarith [hb.2]))
      have e2 := abs_le.1 (hV t q (by linarith [ha.1]) (h1.trans hb.2) g1)
      constructor <;> linarith [e1.1, e1.2, e2.1, e2.2]
    have h1 := intervalIntegral.integral_mono_on (μ := volume) hab
      ((continuous_const (y := 1 / 2 * (g p + g q) - 1 / 2 * (V q - V p))).intervalIntegrable _ _) (hc.intervalIntegrable a b)
      fun t ht => (hb' t ht.1 ht.2).1
    have h2 := intervalIntegral.integral_mono_on (μ := volume) hab (hc.intervalIntegrable a b)
      ((continuous_const (y := 1 / 2 * (g p + g q) + 1 / 2 * (V q - V p))).intervalIntegrable _ _)
      fun t ht => (hb' t ht.1 ht.2).2
    rw [intervalIntegral.integral_const, smul_eq_mul] at h1 h2
    rw [abs_le]
    constructor <;> linarith
  have hi : ∀ u v, IntervalIntegrable g volume u v := fun u v => hc.intervalIntegrable u v
  have split : ∀ a b : ℝ, (∫ t in (0 : ℝ)..b, g t) - ∫ t in (0 : ℝ)..a, g t = ∫ t in a..b, g t := fun a b =>
    intervalIntegral.integral_interval_sub_left (hi _ _) (hi _ _)
  refine ⟨W, ?_, fun a b h0 hab h1 => ?_⟩
  · have e1 := npInterp_node hN hx (fun j => π / N * V (jpaGrid N j)) 0 1 (k := 0) (by omega)
    have e2 := npInterp_node hN hx (fun j => π / N * V (jpaGrid N j)) 0 1 (k := N) le_rfl
    simp only [jpaGrid_zero, jpaGrid_last hN] at e1 e2
    rw [hW, e1, e2]; ring
  · have m1 := mono_of_cells hN hx (f := fun t => W t - (trapLin N f t - ∫ s in (0 : ℝ)..t, g s)) (fun i hi a ha b hb hab => by
      have := abs_le.1 (hcell i hi a ha b hb hab)
      have e := split a b
      show W a - (trapLin N f a - ∫ s in (0 : ℝ)..a, g s) ≤ W b - (trapLin N f b - ∫ s in (0 : ℝ)..b, g s)
      linarith [this.1, this.2]) (a := a) (b := b) (by rw [jpaGrid_zero]; exact h0) hab (by rw [jpaGrid_last hN]; exact h1)
    have m2 := mono_of_cells hN hx (f := fun t => W t + (trapLin N f t - ∫ s in (0 : ℝ)..t, g s)) (fun i hi a ha b hb hab => by
      have := abs_le.1 (hcell i hi a ha b hb hab)
      have e := split a b
      show W a + (trapLin N f a - ∫ s in (0 : ℝ)..a, g s) ≤ W b + (trapLin N f b - ∫ s in (0 : ℝ)..b, g s)
      linarith [this.1, this.2]) (a := a) (b := b) (by rw [jpaGrid_zero]; exact h0) hab (by rw [jpaGrid_last hN]; exact h1)
    have e := split a b
    rw [abs_le]
    constructor <;> linarith

/-- A function that falls, rises and falls again on `[0, 2π]`. -/
theorem variation_dud {g : ℝ → ℝ} {p q : ℝ} (hp : 0 ≤ p) (hpq : p ≤ q) (hq : q ≤ 2 * π) (h1 : AntitoneOn g (Set.Icc 0 p))
    (h2 : MonotoneOn g (Set.Icc p q)) (h3 : AntitoneOn g (Set.Icc q (2 * π))) :
    ∃ V : ℝ → ℝ, (∀ s t, 0 ≤ s → s ≤ t → t ≤ 2 * π → |g t - g s| ≤ V t - V s) ∧
      V (2 * π) - V 0 = 2 * (g q - g p) - g (2 * π) + g 0 := by
  refine ⟨fun t => if t ≤ p then -g t else if t ≤ q then g t - 2 * g p else 2 * g q - 2 * g p - g t, fun s t hs hst ht => ?_, ?_⟩
  · simp only
    by_cases tp : t ≤ p
    · rw [if_pos tp, if_pos (hst.trans tp)]
      have := h1 ⟨hs, hst.trans tp⟩ ⟨hs.trans hst, tp⟩ hst
      rw [abs_le]; constructor <;> linarith
    · rw [if_neg tp]
      have tp := (not_le.1 tp).le
      have t0 := hs.trans hst
      by_cases tq : t ≤ q
      · rw [if_pos tq]
        have b1 := h2 ⟨le_rfl, hpq⟩ ⟨tp, tq⟩ tp
        by_cases sp : s ≤ p
        · rw [if_pos sp]
          have a1 := h1 ⟨hs, sp⟩ ⟨hp, le_rfl⟩ sp
          rw [abs_le]; constructor <;> linarith
        · have sp := not_le.1 sp
          rw [if_neg (not_le.2 sp), if_pos (hst.trans tq)]
          have a1 := h2 ⟨sp.le, hst.trans tq⟩ ⟨tp, tq⟩ hst
          rw [abs_le]; constructor <;> linarith
      · rw [if_neg tq]
        have tq := (not_le.1 tq).le
        have c1 := h3 ⟨le_rfl, hq⟩ ⟨tq, ht⟩ tq
        have c2 := h2 ⟨le_rfl, hpq⟩ ⟨hpq, le_rfl⟩ hpq
        by_cases sp : s ≤ p
        · rw [if_pos sp]
          have a1 := h1 ⟨hs, sp⟩ ⟨hp, le_rfl⟩ sp
          rw [abs_le]; constructor <;> linarith
        · have sp := not_le.1 sp
          rw [if_neg (not_le.2 sp)]
          by_cases sq : s ≤ q
          · rw [if_pos sq]
            have a1 := h2 ⟨sp.le, sq⟩ ⟨hpq, le_rfl⟩ sq
            have a2 := h2 ⟨le_rfl, hpq⟩ ⟨sp.le, sq⟩ sp.le
            rw [abs_le]; constructor <;> linarith
          · have sq := (not_le.1 sq)
            rw [if_neg (not_le.2 sq)]
            have a1 := h3 ⟨sq.le, hst.trans ht⟩ ⟨tq, ht⟩ hst
            rw [abs_le]; constructor <;> linarith
  · simp only
    rw [if_pos hp]
    by_cases tp : 2 * π ≤ p
    · have e1 : p = 2 * π := le_antisymm (hpq.trans hq) tp
      have e2 : q = 2 * π := le_antisymm hq (e1 ▸ hpq)
      rw [if_pos tp, e1, e2]; ring
    · rw [if_neg tp]
      by_cases tq : 2 * π ≤ q
      · rw [if_pos tq, le_antisymm hq tq]; ring
      · rw [if_neg tq]; ring

/-! ## The kernel -/

/-- The kernel as a function of the angle from the direction parameter. -/
noncomputable def jpaG (kappa psi nu phi : ℝ) : ℝ := jpKernel (phi + nu * cos phi) kappa psi

theorem jpaG_pos (kappa psi nu phi : ℝ) : 0 < jpaG kappa psi nu phi := jpKernel_pos _ _ _
theorem jpaG_continuous (kappa psi nu : ℝ) : Continuous (jpaG kappa psi nu) :=
  (jpKernel_continuous kappa psi).comp (by fun_prop)
theorem jpaG_periodic (kappa psi nu : ℝ) : Function.Periodic (jpaG kappa psi nu) (2 * π) := by
  intro phi
  unfold jpaG
  rw [cos_add_two_pi, show phi + 2 * π + nu * cos phi = phi + nu * cos phi + 2 * π by ring]
  exact jpKernel_periodic kappa psi _

/-- The kernel grows with the cosine of its angle. -/
theorem jpKernel_mono {kappa : ℝ} (hk : 0 ≤ kappa) (psi : ℝ) {a b : ℝ} (h : cos a ≤ cos b) :
    jpKernel a kappa psi ≤ jpKernel b kappa psi := by
  unfold jpKernel
  split_ifs with hp
  · exact exp_le_exp.2 (mul_le_mul_of_nonneg_left h hk)
  · rcases lt_trichotomy psi 0 with h0 | h0 | h0
    · have hs : sinh (kappa * psi) ≤ 0 := sinh_nonpos_iff.2 (mul_nonpos_of_nonneg_of_nonpos hk h0.le)
      refine rpow_le_rpow_of_nonpos (lt_of_lt_of_le floatTiny_pos (le_max_right _ _)) (max_le_max_right _ ?_)
        (by rw [one_div]; exact (inv_lt_zero.2 h0).le)
      nlinarith
    · exfalso
      apply hp
      rw [h0, abs_zero]
      unfold jpPsiTol; positivity
    · have hs : 0 ≤ sinh (kappa * psi) := sinh_nonneg_iff.2 (by positivity)
      refine rpow_le_rpow (floatTiny_pos.le.trans (le_max_right _ _)) (max_le_max_right _ ?_) (by positivity)
      nlinarith

/-- Strictly so, for parameters where the base of the power is not replaced. -/
theorem jpKernel_strict {kappa psi : ℝ} (hk : 0 < kappa) (hA : |kappa * psi| ≤ 700) {a b : ℝ} (h : cos a < cos b) :
    jpKernel a kappa psi < jpKernel b kappa psi := by
  by_cases hp : |psi| < jpPsiTol
  · unfold jpKernel
    rw [if_pos hp, if_pos hp]
    exact exp_lt_exp.2 (mul_lt_mul_of_pos_left h hk)
  · rw [jpKernel_eq (not_lt.1 hp) hA, jpKernel_eq (not_lt.1 hp) hA]
    rcases lt_trichotomy psi 0 with h0 | h0 | h0
    · have hs : sinh (kappa * psi) < 0 := sinh_neg_iff.2 (mul_neg_of_pos_of_neg hk h0)
      exact rpow_lt_rpow_of_neg (jp_base_pos _ _) (by nlinarith) (by rw [one_div]; exact inv_lt_zero.2 h0)
    · exfalso
      apply hp
      rw [h0, abs_zero]
      unfold jpPsiTol; positivity
    · have hs : 0 < sinh (kappa * psi) := sinh_pos_iff.2 (by positivity)
      exact rpow_lt_rpow (jp_base_pos _ _).le (by nlinarith) (by positivity)

/-- The warped angle increases. -/
theorem warp_strictMono {nu : ℝ} (h0 : 0 ≤ nu) (h1 : nu < 1) : StrictMono fun phi : ℝ => phi + nu * cos phi := by
  intro a b hab
  have hl : |cos a - cos b| ≤ |a - b| := by
    rw [cos_sub_cos]
    have e1 := abs_sin_le_one ((a + b) / 2)
    have e2 : |sin ((a - b) / 2)| ≤ |(a - b) / 2| := abs_sin_le_abs
    rw [abs_mul, abs_mul, abs_neg, abs_two]
    rw [abs_div, abs_two] at e2
    nlinarith [abs_nonneg (sin ((a - b) / 2)), abs_nonneg (sin ((a + b) / 2))]
  rw [abs_of_neg (by linarith : a - b < 0)] at hl
  have := (abs_le.1 hl).2
  show a + nu * cos a < b + nu * cos b
  nlinarith

/-- The place of the mode, relative to the direction parameter. -/
theorem exists_mode {nu : ℝ} (h0 : 0 ≤ nu) (h1 : nu < 1) : ∃ m : ℝ, -1 < m ∧ m ≤ 0 ∧ m + nu * cos m = 0 := by
  have hc : ContinuousOn (fun phi : ℝ => phi + nu * cos phi) (Set.Icc (-1) 0) := by fun_prop
  have := intermediate_value_Icc (by norm_num : (-1 : ℝ) ≤ 0) hc
  have hm : -1 + nu * cos (-1) < 0 := by
    have := cos_le_one (-1)
    have := cos_pos_of_mem_Ioo (x := -1) ⟨by linarith [pi_gt_three], by linarith [pi_gt_three]⟩
    nlinarith
  obtain ⟨m, ⟨a, b⟩, e⟩ := this ⟨hm.le, by simpa using h0⟩
  refine ⟨m, lt_of_le_of_ne a ?_, b, e⟩
  rintro rfl
  simp only at e
  linarith

theorem exists_trough {nu : ℝ} (h0 : 0 ≤ nu) (h1 : nu < 1) {m : ℝ} (hm : -1 < m) (hm0 : m ≤ 0) (he : m + nu * cos m = 0) :
    ∃ p : ℝ, 0 ≤ p ∧ p ≤ m + 2 * π ∧ p + nu * cos p = π := by
  have hpi := pi_gt_three
  have hc : ContinuousOn (fun phi : ℝ => phi + nu * cos phi) (Set.Icc 0 (m + 2 * π)) := by fun_prop
  have := intermediate_value_Icc (by linarith : (0 : ℝ) ≤ m + 2 * π) hc
  obtain ⟨p, ⟨a, b⟩, e⟩ := this (show π ∈ Set.Icc _ _ from ⟨by simp only [zero_add, cos_zero]; linarith, by
    simp only [cos_add_two_pi]; linarith⟩)
  exact ⟨p, a, b, e⟩

/-- The shape of the kernel over one turn: it falls, rises to the mode and falls. -/
theorem jpaG_shape {kappa : ℝ} (hk : 0 ≤ kappa) (psi : ℝ) {nu : ℝ} (h0 : 0 ≤ nu) (h1 : nu < 1) {m p : ℝ} (hm : -1 < m) (hm0 : m ≤ 0)
    (he : m + nu * cos m = 0) (hp0 : 0 ≤ p) (hp1 : p ≤ m + 2 * π) (hpe : p + nu * cos p = π) :
    AntitoneOn (jpaG kappa psi nu) (Set.Icc 0 p) ∧ MonotoneOn (jpaG kappa psi nu) (Set.Icc p (m + 2 * π)) ∧
      AntitoneOn (jpaG kappa psi nu) (Set.Icc (m + 2 * π) (2 * π)) := by
  have hu := warp_strictMono h0 h1
  have hle : ∀ {a b : ℝ}, a ≤ b → a + nu * cos a ≤ b + nu * cos b := fun h => hu.monotone h
  have e2 : (m + 2 * π) + nu * cos (m + 2 * π) = 2 * π := by rw [cos_add_two_pi]; linarith
  have e3 : 2 * π + nu * cos (2 * π) = 2 * π + nu := by rw [cos_two_pi]; ring
  have hpi := pi_gt_three
  refine ⟨fun a ha b hb hab => ?_, fun a ha b hb hab => ?_, fun a ha b hb hab => ?_⟩
  · refine jpKernel_mono hk psi (cos_le_cos_of_nonneg_of_le_pi ?_ ?_ (hle hab))
    · have := hle ha.1
      simp only [cos_zero] at this
      linarith
    · have := hle hb.2; linarith
  · refine jpKernel_mono hk psi ?_
    have q1 := hle ha.1
    have q2 := hle hb.2
    have q3 := hle hab
    have := cos_le_cos_of_nonneg_of_le_pi (x := 2 * π - (b + nu * cos b)) (y := 2 * π - (a + nu * cos a)) (by linarith) (by linarith) (by linarith)
    rwa [cos_two_pi_sub, cos_two_pi_sub] at this
  · refine jpKernel_mono hk psi ?_
    have q1 := hle ha.1
    have q2 := hle hb.2
    have q3 := hle hab
    have := cos_le_cos_of_nonneg_of_le_pi (x := (a + nu * cos a) - 2 * π) (y := (b + nu * cos b) - 2 * π) (by linarith) (by linarith) (by linarith)
    rwa [cos_sub_two_pi, cos_sub_two_pi] at this

end Verif
