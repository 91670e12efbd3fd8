import Verif.Model.DistJPAsym
import Verif.Lemmas.JPAsym
import Verif.Props.DistJonesPewseyB

/-! # Property C116: the asymmetric extended Jones-Pewsey family -/

set_option autoImplicit false

namespace Verif

open Real MeasureTheory Verif.Spec

/-! ## The density -/

theorem jpaG_mass_pos (xi kappa psi nu : ℝ) : 0 < ∫ t in (0 : ℝ)..(2 * π), jpaG kappa psi nu (t - xi) :=
  intervalIntegral.intervalIntegral_pos_of_pos_on
    (((jpaG_continuous kappa psi nu).comp (continuous_id.sub continuous_const)).intervalIntegrable _ _)
    (fun t _ => jpaG_pos _ _ _ _) two_pi_pos

theorem jpaG_shift_mass (xi kappa psi nu : ℝ) :
    ∫ t in (-π)..π, jpaG kappa psi nu (t - xi) = ∫ t in (0 : ℝ)..(2 * π), jpaG kappa psi nu (t - xi) := by
  have hper : Function.Periodic (fun t => jpaG kappa psi nu (t - xi)) (2 * π) := fun t => by
    show jpaG kappa psi nu (t + 2 * π - xi) = _
    rw [show t + 2 * π - xi = t - xi + 2 * π by ring]
    exact jpaG_periodic kappa psi nu _
  have := hper.intervalIntegral_add_eq (-π) 0
  rwa [show -π + 2 * π = π by ring, zero_add] at this

theorem jpaPdf_eq {s : JPA} (hk : 1 / 10 ^ 3 ≤ s.kappa) (x : ℝ) :
    jpaPdf x s = jpaG s.kappa s.psi s.nu (x - s.xi) / ∫ t in (0 : ℝ)..(2 * π), jpaG s.kappa s.psi s.nu (t - s.xi) := by
  have hk0 : 0 < s.kappa := lt_of_lt_of_le (by norm_num) hk
  unfold jpaPdf jpaConst
  rw [if_neg (by rw [abs_of_pos hk0]; exact not_lt.2 hk), if_neg (not_lt.2 (show jpKappaTol ≤ s.kappa from hk)), ← jpaG_shift_mass]
  show 1 / (∫ t in (-π)..π, jpaG s.kappa s.psi s.nu (t - s.xi)) * jpaG s.kappa s.psi s.nu (x - s.xi) = _
  ring

theorem jpa_isCircularDensity (xi kappa psi nu : ℝ) : IsCircularDensity fun x =>
    jpaG kappa psi nu (x - xi) / ∫ t in (0 : ℝ)..(2 * π), jpaG kappa psi nu (t - xi) := by
  have hm := jpaG_mass_pos xi kappa psi nu
  refine ⟨fun x _ _ => (div_pos (jpaG_pos _ _ _ _) hm).le, ?_, ?_⟩
  · exact (((jpaG_continuous kappa psi nu).comp (continuous_id.sub continuous_const)).div_const _).intervalIntegrable _ _
  · rw [intervalIntegral.integral_div, div_self hm.ne']

theorem jpaG_shapeEq {kappa psi : ℝ} (hpsi : 1 / 10 ^ 6 ≤ |psi| ∨ psi = 0) (hA : |kappa * psi| ≤ 700) (nu phi : ℝ) :
    jpaShape kappa psi nu phi = jpaG kappa psi nu phi := (jpShape_kernel hpsi hA _).symm

theorem jpaDensity_eq {kappa psi : ℝ} (hpsi : 1 / 10 ^ 6 ≤ |psi| ∨ psi = 0) (hA : |kappa * psi| ≤ 700) (nu xi : ℝ) :
    jpaDensity xi kappa psi nu = fun x => jpaG kappa psi nu (x - xi) / ∫ t in (0 : ℝ)..(2 * π), jpaG kappa psi nu (t - xi) := by
  funext x
  unfold jpaDensity
  simp only [jpaG_shapeEq hpsi hA]

/-- **C116.** For every accepted direction and skewness, every `kappa` from `1e-3` on and every `psi` that is 0 or at
least `1e-6` in size (with `|kappa psi| ≤ 700`), the density of the object is the Jones-Pewsey shape at the warped
angle `φ + ν cos φ`, `φ = x - ξ`, divided by its integral over the circle. It is positive and has total mass 1. -/
theorem C116_density (E : JPEnv) {xi kappa psi nu : ℝ} (hx0 : 0 ≤ xi) (hx1 : xi ≤ 2 * π) (hk : 1 / 10 ^ 3 ≤ kappa)
    (hpsi : 1 / 10 ^ 6 ≤ |psi| ∨ psi = 0) (hA : |kappa * psi| ≤ 700) (hn0 : 0 ≤ nu) (hn1 : nu < 1) :
    IsCircularDensity (jpaDensity xi kappa psi nu) ∧ (∀ x, 0 < jpaDensity xi kappa psi nu x) ∧
    (∀ x, RegularAngle x → distPdf (jonespewseyAsym E) x ⟨xi, kappa, psi, nu⟩ = some (jpaDensity xi kappa psi nu x)) := by
  have hk0 : 0 < kappa := lt_of_lt_of_le (by norm_num) hk
  rw [jpaDensity_eq hpsi hA]
  refine ⟨jpa_isCircularDensity _ _ _ _, fun x => div_pos (jpaG_pos _ _ _ _) (jpaG_mass_pos _ _ _ _), fun x hx => ?_⟩
  rw [distPdf_regular _ (show (jonespewseyAsym E).argcheck ⟨xi, kappa, psi, nu⟩ from ⟨⟨hx0, hx1⟩, hk0.le, hn0, hn1⟩) hx]
  exact congrArg some (jpaPdf_eq (s := ⟨xi, kappa, psi, nu⟩) hk x)

example : IsCircularDensity (jpaDensity 1 2 (-1 / 2) (3 / 4)) :=
  (C116_density (kappa := 2) ⟨fun _ _ => none, fun _ => 0, fun _ _ _ => 0⟩ (by norm_num) (by linarith [pi_gt_three]) (by norm_num) (Or.inl (by norm_num [abs_of_pos]))
    (by norm_num [abs_of_pos]) (by norm_num) (by norm_num)).1

/-- **C116.** The density has exactly one mode: it is at `ξ + m` for the solution `m` of `m + ν cos m = 0` in
`(-1, 0]`. The documentation calls `ξ` the mode, but for `ν > 0` the mode lies before `ξ` and the density at
`ξ` is smaller than at the mode. -/
theorem C116_mode {xi kappa psi nu : ℝ} (hk : 0 < kappa) (hpsi : 1 / 10 ^ 6 ≤ |psi| ∨ psi = 0) (hA : |kappa * psi| ≤ 700)
    (hn0 : 0 ≤ nu) (hn1 : nu < 1) :
    ∃ m, -1 < m ∧ m ≤ 0 ∧ m + nu * cos m = 0 ∧ (∀ x, jpaDensity xi kappa psi nu x ≤ jpaDensity xi kappa psi nu (xi + m)) ∧
      (∀ x, jpaDensity xi kappa psi nu x = jpaDensity xi kappa psi nu (xi + m) → SameDir x (xi + m)) ∧
      (0 < nu → m < 0 ∧ jpaDensity xi kappa psi nu xi < jpaDensity xi kappa psi nu (xi + m)) := by
  obtain ⟨m, hm, hm0, he⟩ := exists_mode hn0 hn1
  have hM := jpaG_mass_pos xi kappa psi nu
  rw [jpaDensity_eq hpsi hA]
  have hmode : ∀ phi, jpaG kappa psi nu phi ≤ jpaG kappa psi nu m := fun phi => by
    unfold jpaG
    exact jpKernel_mono hk.le psi (by rw [he, cos_zero]; exact cos_le_one _)
  have huniq : ∀ phi, jpaG kappa psi nu phi = jpaG kappa psi nu m → ∃ k : ℤ, phi = m + k * (2 * π) := fun phi h => by
    have hc : cos (phi + nu * cos phi) = 1 := by
      by_contra hne
      have hlt : cos (phi + nu * cos phi) < cos (m + nu * cos m) := by
        rw [he, cos_zero]; exact lt_of_le_of_ne (cos_le_one _) hne
      exact absurd h (jpKernel_strict hk hA hlt).ne
    obtain ⟨k, hk⟩ := (cos_eq_one_iff _).1 hc
    refine ⟨k, (warp_strictMono hn0 hn1).injective ?_⟩
    show phi + nu * cos phi = m + k * (2 * π) + nu * cos (m + k * (2 * π))
    rw [cos_add_int_mul_two_pi]
    linarith
  have esub : xi + m - xi = m := by ring
  refine ⟨m, hm, hm0, he, fun x => ?_, fun x hx => ?_, fun hn => ?_⟩
  · simp only [esub]
    exact div_le_div_of_nonneg_right (hmode _) hM.le
  · simp only [esub] at hx
    obtain ⟨k, hk⟩ := huniq _ ((div_left_inj' hM.ne').1 hx)
    exact ⟨k, by linarith⟩
  · have hm1 : m < 0 := lt_of_le_of_ne hm0 fun h0 => by
      rw [h0, cos_zero] at he; linarith
    refine ⟨hm1, ?_⟩
    simp only [esub, sub_self]
    refine div_lt_div_of_pos_right (lt_of_le_of_ne (hmode 0) fun h => ?_) hM
    obtain ⟨k, hk⟩ := huniq 0 h
    have hp := pi_gt_three
    have h1 : (k : ℝ) * (2 * π) = -m := by linarith
    have k0 : (0 : ℝ) < k := by
      by_contra hcon
      have : (k : ℝ) * (2 * π) ≤ 0 := mul_nonpos_of_nonpos_of_nonneg (not_lt.1 hcon) two_pi_pos.le
      linarith
    have k1 : (1 : ℝ) ≤ k := by
      have : (0 : ℤ) < k := by exact_mod_cast k0
      exact_mod_cast this
    nlinarith

/-- **C116.** Without skewness the density is that of the Jones-Pewsey object. -/
theorem C116_nested (E : JPEnv) (hl : LpmvExact E.lpmv) {xi kappa psi x : ℝ} (hx0 : 0 ≤ xi) (hx1 : xi ≤ 2 * π) (hk : 0 ≤ kappa)
    (hA : |kappa * psi| ≤ 700) (hx : RegularAngle x) :
    distPdf (jonespewseyAsym E) x ⟨xi, kappa, psi, 0⟩ = distPdf (jonespewsey E) x ⟨xi, kappa, psi⟩ := by
  rw [distPdf_regular _ (show (jonespewseyAsym E).argcheck ⟨xi, kappa, psi, 0⟩ from ⟨⟨hx0, hx1⟩, hk, le_rfl, one_pos⟩) hx,
    distPdf_regular _ (show (jonespewsey E).argcheck ⟨xi, kappa, psi⟩ from ⟨⟨hx0, hx1⟩, hk⟩) hx]
  congr 1
  by_cases h : 1 / 10 ^ 3 ≤ kappa
  · have e1 := jpaPdf_eq (s := ⟨xi, kappa, psi, 0⟩) h x
    refine Eq.trans e1 (Eq.trans ?_ (jpPdf_eq hl h hA x).symm)
    simp only [jpaG, zero_mul, add_zero]
  · show jpaPdf x ⟨xi, kappa, psi, 0⟩ = jpPdf E.lpmv x xi kappa psi
    unfold jpaPdf jpPdf
    rw [if_pos (by rw [abs_of_nonneg hk]; exact not_le.1 h), if_pos (by rw [abs_of_nonneg hk]; exact not_le.1 h)]

/-! ## The table -/

theorem jpaPdf_pos (x : ℝ) (s : JPA) : 0 < jpaPdf x s := by
  unfold jpaPdf
  split_ifs with h
  · positivity
  · unfold jpaConst
    have h1 : 0 < jpaKernel x s := jpaG_pos s.kappa s.psi s.nu (x - s.xi)
    split_ifs
    · positivity
    · have : 0 < ∫ t in (-π)..π, jpaKernel t s := by
        show 0 < ∫ t in (-π)..π, jpaG s.kappa s.psi s.nu (t - s.xi)
        rw [jpaG_shift_mass]; exact jpaG_mass_pos _ _ _ _
      positivity

theorem jpaVals_pos {s : JPA} (ha : jpaArgcheck s) (j : ℕ) : 0 < jpaVals s 4096 j := by
  unfold jpaVals distPdf
  rw [if_neg (not_not.2 (show jpaBase.argcheck s from ha)), if_pos (wrap2pi_mem _)]
  exact jpaPdf_pos _ _

theorem jpaTot_pos {s : JPA} (ha : jpaArgcheck s) : 0 < trapLin 4096 (jpaVals s 4096) (2 * π) := by
  have := trapLin_strict (N := 4096) (by norm_num) (f := jpaVals s 4096) (fun j _ => jpaVals_pos ha j) le_rfl two_pi_pos le_rfl
  rwa [trapLin_zero (by norm_num)] at this

theorem jpaH_eq {s : JPA} (ha : jpaArgcheck s) {phi : ℝ} (h0 : 0 ≤ phi) (h1 : phi ≤ 2 * π) :
    jpaH s phi = trapLin 4096 (jpaVals s 4096) phi / trapLin 4096 (jpaVals s 4096) (2 * π) := by
  have ht := jpaTot_pos ha
  unfold jpaH
  rw [show jpaCumul 4096 (jpaVals s 4096) = fun k => jpaTrap 4096 (jpaVals s 4096) k / trapLin 4096 (jpaVals s 4096) (2 * π) from ?_,
    npInterp_div (by norm_num) (jpaGrid_increasing (by norm_num)) _ _ _ _ (by rw [jpaGrid_zero]; exact h0)
      (by rw [jpaGrid_last (by norm_num)]; exact h1)]
  · rfl
  · funext k
    unfold jpaCumul
    rw [trapLin_last (by norm_num)] at ht ⊢
    simp only
    rw [if_neg (not_le.2 ht)]

/-- The table gives the mass of an arc of the interpolated running sums. -/
theorem jpaCdf_arc (E : JPEnv) {s : JPA} (ha : jpaArgcheck s) (hn : ¬ (s.kappa < jpKappaTol ∧ |s.nu| < 1 / 10 ^ 12)) {x : ℝ}
    (hx0 : 0 ≤ x) (hx1 : x < 2 * π - wrapTol) :
    ∃ b, 0 ≤ b ∧ b < 2 * π ∧
      ((b = pymod (-s.xi) (2 * π) + x ∧ jpaCdf E x s
          = (trapLin 4096 (jpaVals s 4096) b - trapLin 4096 (jpaVals s 4096) (pymod (-s.xi) (2 * π))) / trapLin 4096 (jpaVals s 4096) (2 * π)) ∨
       (b = pymod (-s.xi) (2 * π) + x - 2 * π ∧ jpaCdf E x s
          = 1 - (trapLin 4096 (jpaVals s 4096) (pymod (-s.xi) (2 * π)) - trapLin 4096 (jpaVals s 4096) b) / trapLin 4096 (jpaVals s 4096) (2 * π))) := by
  have hp := two_pi_pos
  have hw := wrapTol_pos
  have ht := jpaTot_pos ha
  obtain ⟨k, j, e1, e2, e3⟩ := pymod_arc (x := x) (mu := s.xi) hx0 (by linarith)
  have a0 := pymod_nonneg hp (-s.xi)
  have a1 := pymod_lt hp (-s.xi)
  have b0 := pymod_nonneg hp (x - s.xi)
  have b1 := pymod_lt hp (x - s.xi)
  have hmono : ∀ {u v : ℝ}, 0 ≤ u → u ≤ v → v ≤ 2 * π → trapLin 4096 (jpaVals s 4096) u ≤ trapLin 4096 (jpaVals s 4096) v := by
    intro u v h0 h1 h2
    rcases h1.lt_or_eq with h | h
    · exact (trapLin_strict (by norm_num) (fun j _ => jpaVals_pos ha j) h0 h h2).le
    · rw [h]
  have hz := trapLin_zero (N := 4096) (by norm_num) (jpaVals s 4096)
  refine ⟨pymod (x - s.xi) (2 * π), b0, b1, ?_⟩
  have hunit : ∀ {u v : ℝ}, 0 ≤ u → u ≤ v → v ≤ 2 * π →
      0 ≤ (trapLin 4096 (jpaVals s 4096) v - trapLin 4096 (jpaVals s 4096) u) / trapLin 4096 (jpaVals s 4096) (2 * π) ∧
      (trapLin 4096 (jpaVals s 4096) v - trapLin 4096 (jpaVals s 4096) u) / trapLin 4096 (jpaVals s 4096) (2 * π) ≤ 1 := by
    intro u v h0 h1 h2
    refine ⟨div_nonneg (by linarith [hmono h0 h1 h2]) ht.le, (div_le_one ht).2 ?_⟩
    have c1 := hmono le_rfl h0 (h1.trans h2)
    have c2 := hmono (h0.trans h1) h2 le_rfl
    linarith
  unfold jpaCdf
  simp only
  rw [if_neg hn, wrap2pi_self hx0 hx1]
  by_cases hle : pymod (-s.xi) (2 * π) ≤ pymod (x - s.xi) (2 * π)
  · rw [if_pos hle] at e3 ⊢
    left
    obtain ⟨c0, c1⟩ := hunit a0 hle b1.le
    refine ⟨by rw [e1, e2, e3]; ring, ?_⟩
    rw [jpaH_eq ha b0 b1.le, jpaH_eq ha a0 a1.le, ← sub_div]
    unfold clip
    rw [max_eq_left c0, min_eq_left c1]
  · rw [if_neg hle] at e3 ⊢
    right
    obtain ⟨c0, c1⟩ := hunit b0 (not_le.1 hle).le a1.le
    refine ⟨by rw [e1, e2, e3]; push_cast; ring, ?_⟩
    rw [jpaH_eq ha b0 b1.le, jpaH_eq ha a0 a1.le, ← sub_div]
    unfold clip
    rw [max_eq_left (by linarith), min_eq_left (by linarith)]

/-- **C116.** For `kappa` from `1e-3` on the distribution function takes values in `[0, 1]`, is 0 at 0 and 1 at `2π`,
and increases strictly. -/
theorem C116_cdf_monotone (E : JPEnv) {xi kappa psi nu : ℝ} (hx0 : 0 ≤ xi) (hx1 : xi ≤ 2 * π) (hk : 1 / 10 ^ 3 ≤ kappa)
    (hn0 : 0 ≤ nu) (hn1 : nu < 1) :
    ∃ F : ℝ → ℝ, (∀ x, RegularAngle x → distCdf (jonespewseyAsym E) x ⟨xi, kappa, psi, nu⟩ = some (F x)) ∧ F 0 = 0 ∧ F (2 * π) = 1 ∧
      (∀ x, RegularAngle x → 0 ≤ F x ∧ F x ≤ 1) ∧ ∀ x y, RegularAngle x → RegularAngle y → x < y → F x < F y := by
  have hk0 : 0 < kappa := lt_of_lt_of_le (by norm_num) hk
  have h14 : (0 : ℝ) < 1 / 10 ^ 14 := by positivity
  have hpi := pi_gt_three
  have hp := two_pi_pos
  obtain ⟨s, hs⟩ : ∃ s : JPA, s = ⟨xi, kappa, psi, nu⟩ := ⟨_, rfl⟩
  have ha : jpaArgcheck s := by rw [hs]; exact ⟨⟨hx0, hx1⟩, hk0.le, hn0, hn1⟩
  have hn : ¬ (s.kappa < jpKappaTol ∧ |s.nu| < 1 / 10 ^ 12) := fun h => absurd h.1 (by rw [hs]; exact not_lt.2 hk)
  rw [← hs]
  obtain ⟨F, hF⟩ : ∃ F : ℝ → ℝ, F = fun x => (distCdf (jonespewseyAsym E) x s).getD 0 := ⟨_, rfl⟩
  have hsome : ∀ x, distCdf (jonespewseyAsym E) x s = some (F x) := fun x => by
    rw [hF]
    simp only
    unfold distCdf
    rw [if_neg (not_not.2 (show (jonespewseyAsym E).argcheck s from ha))]
    split_ifs <;> rfl
  have f0 : F 0 = 0 := by
    have := hsome 0
    unfold distCdf at this
    rw [if_neg (not_not.2 (show (jonespewseyAsym E).argcheck s from ha)), wrap2pi_zero, if_neg (by linarith), if_neg (lt_irrefl _)] at this
    exact (Option.some.inj this).symm
  have f1 : F (2 * π) = 1 := by
    have := hsome (2 * π)
    unfold distCdf at this
    rw [if_neg (not_not.2 (show (jonespewseyAsym E).argcheck s from ha)), wrap2pi_two_pi, if_pos le_rfl] at this
    exact (Option.some.inj this).symm
  have fin : ∀ x, 0 < x → x ≤ 2 * π - 1 / 10 ^ 14 → F x = jpaCdf E x s := fun x h0 h1 =>
    Option.some.inj ((hsome x).symm.trans (distCdf_inner (jonespewseyAsym E) s ha h0 h1))
  have hst : ∀ {u v : ℝ}, 0 ≤ u → u < v → v ≤ 2 * π → trapLin 4096 (jpaVals s 4096) u < trapLin 4096 (jpaVals s 4096) v :=
    fun h0 h1 h2 => trapLin_strict (by norm_num) (fun j _ => jpaVals_pos ha j) h0 h1 h2
  have ht := jpaTot_pos ha
  have hz := trapLin_zero (N := 4096) (by norm_num) (jpaVals s 4096)
  have a0 := pymod_nonneg hp (-s.xi)
  have a1 := pymod_lt hp (-s.xi)
  obtain ⟨a, hae⟩ : ∃ a, a = pymod (-s.xi) (2 * π) := ⟨_, rfl⟩
  have arc := fun (x : ℝ) (h0 : 0 ≤ x) (h1 : x < 2 * π - wrapTol) => jpaCdf_arc E ha hn h0 h1
  rw [← hae] at a0 a1 arc
  obtain ⟨T, hT⟩ : ∃ T, T = trapLin 4096 (jpaVals s 4096) := ⟨_, rfl⟩
  rw [← hT] at hst ht hz arc
  have htz : T a ≤ T (2 * π) := (hst a0 a1 le_rfl).le
  have inner : ∀ x, 0 < x → x ≤ 2 * π - 1 / 10 ^ 14 → 0 < F x ∧ F x < 1 := by
    intro x h0 h1
    rw [fin x h0 h1]
    obtain ⟨b, b0, b1, ⟨eb, e⟩ | ⟨eb, e⟩⟩ := arc x h0.le (by linarith [wrapTol_lt])
    · rw [e]
      have c1 := hst a0 (by linarith : a < b) b1.le
      refine ⟨div_pos (by linarith) ht, (div_lt_one ht).2 ?_⟩
      have c2 := hst b0 b1 le_rfl
      have c3 : T 0 ≤ T a := by
        rcases a0.lt_or_eq with h | h
        · exact (hst le_rfl h a1.le).le
        · rw [← h]
      linarith
    · rw [e]
      have c1 := hst b0 (by linarith : b < a) a1.le
      have c2 := hst a0 a1 le_rfl
      have c3 : T 0 ≤ T b := by
        rcases b0.lt_or_eq with h | h
        · exact (hst le_rfl h b1.le).le
        · rw [← h]
      have c4 : 0 < (T a - T b) / T (2 * π) := div_pos (by linarith) ht
      have c5 : (T a - T b) / T (2 * π) < 1 := (div_lt_one ht).2 (by linarith)
      constructor <;> linarith
  refine ⟨F, fun x _ => hsome x, f0, f1, ?_, ?_⟩
  · rintro x ⟨h0, h1 | h1⟩
    · rcases h0.lt_or_eq with h | h
      · have := inner x h h1; exact ⟨this.1.le, this.2.le⟩
      · rw [← h, f0]; exact ⟨le_rfl, zero_le_one⟩
    · rw [h1, f1]; exact ⟨zero_le_one, le_rfl⟩
  · rintro x y ⟨x0, hx⟩ ⟨y0, hy⟩ hxy
    have hx' : x ≤ 2 * π - 1 / 10 ^ 14 := by
      rcases hx with h | h
      · exact h
      · rcases hy with h' | h' <;> linarith
    rcases hy with hy | hy
    · rcases x0.lt_or_eq with h | h
      · rw [fin x h hx', fin y (by linarith) hy]
        obtain ⟨b, b0, b1, ⟨eb, e⟩ | ⟨eb, e⟩⟩ := arc x x0 (by linarith [wrapTol_lt]) <;>
        obtain ⟨c, c0, c1, ⟨ec, e'⟩ | ⟨ec, e'⟩⟩ := arc y y0 (by linarith [wrapTol_lt])
        · rw [e, e']
          exact div_lt_div_of_pos_right (by linarith [hst b0 (by linarith : b < c) c1.le]) ht
        · rw [e, e', sub_div, sub_div]
          have c2 := hst b0 b1 le_rfl
          have c3 : T 0 ≤ T c := by
            rcases c0.lt_or_eq with h | h
            · exact (hst le_rfl h c1.le).le
            · rw [← h]
          have d1 : T b / T (2 * π) < 1 := (div_lt_one ht).2 c2
          have d2 : 0 ≤ T c / T (2 * π) := div_nonneg (by linarith) ht.le
          linarith
        · linarith
        · rw [e, e']
          have : (T a - T c) / T (2 * π) < (T a - T b) / T (2 * π) :=
            div_lt_div_of_pos_right (by linarith [hst b0 (by linarith : b < c) c1.le]) ht
          linarith
      · rw [← h, f0]; exact (inner y (by linarith) hy).1
    · rw [hy, f1]
      rcases x0.lt_or_eq with h | h
      · exact (inner x h hx').2
      · rw [← h, f0]; exact one_pos

/-! ## Accuracy of the table -/

/-- The grid of the table, counted from `xi`, has no angle in the last `1e-14` before `2π` (where the library replaces an
angle by `2π`). -/
def GridRegular (xi : ℝ) : Prop := ∀ j : ℕ, j ≤ 4096 → RegularAngle (pymod (xi + j * (2 * π / 4096)) (2 * π))

theorem table_core {T G W : ℝ → ℝ} {e : ℝ} (hW : W (2 * π) - W 0 = e)
    (hE : ∀ a b, 0 ≤ a → a ≤ b → b ≤ 2 * π → |(T b - T a) - (G b - G a)| ≤ W b - W a)
    (hT : ∀ a b, 0 ≤ a → a ≤ b → b ≤ 2 * π → T a ≤ T b) (hG : ∀ a b, 0 ≤ a → a ≤ b → b ≤ 2 * π → G a ≤ G b)
    (hT0 : T 0 = 0) (hG0 : G 0 = 0) (hG1 : G (2 * π) = 1) (htot : 0 < T (2 * π)) {u w : ℝ} (hu : 0 ≤ u) (huw : u ≤ w) (hw : w ≤ 2 * π) :
    |(T w - T u) / T (2 * π) - (G w - G u)| ≤ 2 * e := by
  have hp := two_pi_pos
  have e1 := abs_le.1 (hE 0 u le_rfl hu (huw.trans hw))
  have e2 := abs_le.1 (hE u w hu huw hw)
  have e3 := abs_le.1 (hE w (2 * π) (hu.trans huw) hw le_rfl)
  have t1 := hT 0 u le_rfl hu (huw.trans hw)
  have t2 := hT u w hu huw hw
  have t3 := hT w (2 * π) (hu.trans huw) hw le_rfl
  have g1 := hG 0 u le_rfl hu (huw.trans hw)
  have g2 := hG u w hu huw hw
  have g3 := hG w (2 * π) (hu.trans huw) hw le_rfl
  obtain ⟨J, hJ⟩ : ∃ J, J = G w - G u := ⟨_, rfl⟩
  obtain ⟨A, hA⟩ : ∃ A, A = (T w - T u) - (G w - G u) := ⟨_, rfl⟩
  obtain ⟨B, hB⟩ : ∃ B, B = T (2 * π) - 1 - A := ⟨_, rfl⟩
  have hJ0 : 0 ≤ J := by linarith
  have hJ1 : J ≤ 1 := by linarith
  have hAB : |A| + |B| ≤ e := by
    have hAe : |A| ≤ W w - W u := abs_le.2 ⟨by linarith [e2.1], by linarith [e2.2]⟩
    have hBe : |B| ≤ (W u - W 0) + (W (2 * π) - W w) := abs_le.2 ⟨by linarith [e1.1, e3.1], by linarith [e1.2, e3.2]⟩
    linarith
  have h0 : 0 ≤ (T w - T u) / T (2 * π) := div_nonneg (by linarith) htot.le
  have h1 : (T w - T u) / T (2 * π) ≤ 1 := (div_le_one htot).2 (by linarith)
  rw [← hJ]
  have hA' := abs_le.1 (le_refl |A|)
  have hB' := abs_le.1 (le_refl |B|)
  by_cases he : e ≤ 1 / 2
  · have ht2 : 1 / 2 ≤ T (2 * π) := by linarith [hA'.1, hB'.1]
    have hval : (T w - T u) / T (2 * π) - J = (A * (1 - J) - J * B) / T (2 * π) := by
      have : T w - T u = J + A := by linarith
      rw [this]
      field_simp
      rw [show T (2 * π) = 1 + A + B by linarith]
      ring
    rw [hval, abs_div, abs_of_pos htot, div_le_iff₀ htot]
    have hnum : |A * (1 - J) - J * B| ≤ e := by
      have := abs_sub (A * (1 - J)) (J * B)
      rw [abs_mul, abs_mul, abs_of_nonneg hJ0, abs_of_nonneg (by linarith : 0 ≤ 1 - J)] at this
      have k1 : |A| * (1 - J) ≤ |A| := mul_le_of_le_one_right (abs_nonneg A) (by linarith)
      have k2 : J * |B| ≤ |B| := mul_le_of_le_one_left (abs_nonneg B) hJ1
      linarith
    have he0 : 0 ≤ e := (add_nonneg (abs_nonneg A) (abs_nonneg B)).trans hAB
    have := mul_le_mul_of_nonneg_left ht2 he0
    linarith
  · have : |(T w - T u) / T (2 * π) - J| ≤ 1 := abs_le.2 ⟨by linarith, by linarith⟩
    linarith

/-- Distance of the table from the integral of a density `x ↦ g (x - xi)` whose variation is bounded by `V`. -/
theorem jpaCdf_error (E : JPEnv) {s : JPA} (ha : jpaArgcheck s) (hn : ¬ (s.kappa < jpKappaTol ∧ |s.nu| < 1 / 10 ^ 12))
    {g V : ℝ → ℝ} (hc : Continuous g) (hpos : ∀ t, 0 < g t) (hper : Function.Periodic g (2 * π)) (hmass : ∫ t in (0 : ℝ)..(2 * π), g t = 1)
    (hvals : ∀ j, j ≤ 4096 → jpaVals s 4096 j = g (jpaGrid 4096 j))
    (hV : ∀ s t, 0 ≤ s → s ≤ t → t ≤ 2 * π → |g t - g s| ≤ V t - V s) {x : ℝ} (hx0 : 0 ≤ x) (hx1 : x < 2 * π - wrapTol) :
    |jpaCdf E x s - ∫ t in (0 : ℝ)..x, g (t - s.xi)| ≤ π / 2048 * (V (2 * π) - V 0) := by
  have hp := two_pi_pos
  obtain ⟨W, hW, hE⟩ := trapLin_error hc hV (N := 4096) (by norm_num) hvals
  have hint : ∀ a b, IntervalIntegrable g volume a b := fun a b => hc.intervalIntegrable a b
  obtain ⟨G, hG⟩ : ∃ G : ℝ → ℝ, G = fun u => ∫ t in (0 : ℝ)..u, g t := ⟨_, rfl⟩
  have hGsub : ∀ a b, G b - G a = ∫ t in a..b, g t := fun a b => by
    rw [hG]; exact intervalIntegral.integral_interval_sub_left (hint _ _) (hint _ _)
  obtain ⟨T, hT⟩ : ∃ T, T = trapLin 4096 (jpaVals s 4096) := ⟨_, rfl⟩
  have core := fun {u w : ℝ} (hu : 0 ≤ u) (huw : u ≤ w) (hw : w ≤ 2 * π) => table_core (T := T) (G := G) hW (fun a b h0 h1 h2 => by
      rw [hGsub, hT]; exact hE a b h0 h1 h2) (fun a b h0 h1 h2 => by
      rcases h1.lt_or_eq with h | h
      · rw [hT]; exact (trapLin_strict (by norm_num) (fun j _ => jpaVals_pos ha j) h0 h h2).le
      · rw [h]) (fun a b h0 h1 h2 => by
      have := hGsub a b
      have h3 : 0 ≤ ∫ t in a..b, g t := intervalIntegral.integral_nonneg h1 fun t _ => (hpos t).le
      linarith) (by rw [hT]; exact trapLin_zero (by norm_num) _) (by rw [hG]; simp) (by rw [hG]; exact hmass)
      (by rw [hT]; exact jpaTot_pos ha) hu huw hw
  have ec : 2 * (π / ((4096 : ℕ) : ℝ) * (V (2 * π) - V 0)) = π / 2048 * (V (2 * π) - V 0) := by push_cast; ring
  rw [ec] at core
  obtain ⟨j, hj⟩ := pymod_cong (-s.xi) (2 * π)
  have a0 := pymod_nonneg hp (-s.xi)
  have a1 := pymod_lt hp (-s.xi)
  obtain ⟨b, b0, b1, hb⟩ := jpaCdf_arc E ha hn hx0 hx1
  obtain ⟨a, hae⟩ : ∃ a, a = pymod (-s.xi) (2 * π) := ⟨_, rfl⟩
  rw [← hae] at hj a0 a1 hb
  rw [← hT] at hb
  have hI : ∫ t in (0 : ℝ)..x, g (t - s.xi) = ∫ t in a..(a + x), g t := by
    rw [show (∫ t in a..(a + x), g t) = ∫ t in (0 : ℝ)..x, g (t + a) by
      rw [intervalIntegral.integral_comp_add_right (fun t => g t), zero_add, add_comm x a]]
    refine intervalIntegral.integral_congr fun t _ => ?_
    show g (t - s.xi) = g (t + a)
    rw [← hper.int_mul j (t - s.xi), hj]
    congr 1; ring
  rw [hI]
  rcases hb with ⟨eb, e⟩ | ⟨eb, e⟩
  · rw [e, ← eb, ← hGsub]
    exact core a0 (by linarith) b1.le
  · rw [e]
    have hsplit : ∫ t in a..(a + x), g t = 1 - (G a - G b) := by
      have h1 : ∫ t in b..(b + 2 * π), g t = 1 := by
        rw [hper.intervalIntegral_add_eq b 0, zero_add]; exact hmass
      have h2 := intervalIntegral.integral_add_adjacent_intervals (hint b a) (hint a (a + x))
      rw [show b + 2 * π = a + x by linarith] at h1
      have := hGsub b a
      linarith
    rw [hsplit, show 1 - (T a - T b) / T (2 * π) - (1 - (G a - G b)) = -((T a - T b) / T (2 * π) - (G a - G b)) by ring, abs_neg]
    exact core b0 (by linarith [wrapTol_pos]) a1.le

theorem jpaVals_eq {s : JPA} (ha : jpaArgcheck s) (hreg : GridRegular s.xi) {g : ℝ → ℝ} (hper : Function.Periodic g (2 * π))
    (hg : ∀ x, jpaPdf x s = g (x - s.xi)) {j : ℕ} (hj : j ≤ 4096) : jpaVals s 4096 j = g (jpaGrid 4096 j) := by
  unfold jpaVals
  have hr := hreg j hj
  rw [show s.xi + (j : ℝ) * (2 * π / 4096) = s.xi + jpaGrid 4096 j by unfold jpaGrid; push_cast; ring] at hr
  rw [distPdf_regular jpaBase (show jpaBase.argcheck s from ha) hr]
  show jpaPdf _ s = _
  obtain ⟨k, hk⟩ := pymod_cong (s.xi + jpaGrid 4096 j) (2 * π)
  rw [hg, hk, ← hper.int_mul k (jpaGrid 4096 j)]
  congr 1; ring

/-- The distribution function differs from the integral of the density by at most `π/1024` times the largest density. -/
theorem jpa_cdf_error (E : JPEnv) {xi kappa psi nu : ℝ} (hx0 : 0 ≤ xi) (hx1 : xi ≤ 2 * π) (hk : 1 / 10 ^ 3 ≤ kappa)
    (hpsi : 1 / 10 ^ 6 ≤ |psi| ∨ psi = 0) (hA : |kappa * psi| ≤ 700) (hn0 : 0 ≤ nu) (hn1 : nu < 1) (hreg : GridRegular xi)
    {peak : ℝ} (hpeak : ∀ x, jpaDensity xi kappa psi nu x ≤ peak) {x : ℝ} (h0 : 0 ≤ x) (h1 : x < 2 * π - wrapTol) :
    |jpaCdf E x ⟨xi, kappa, psi, nu⟩ - ∫ t in (0 : ℝ)..x, jpaDensity xi kappa psi nu t| ≤ π / 1024 * peak := by
  have hk0 : 0 < kappa := lt_of_lt_of_le (by norm_num) hk
  have hp := two_pi_pos
  have hM := jpaG_mass_pos xi kappa psi nu
  obtain ⟨m, hm, hm0, he⟩ := exists_mode hn0 hn1
  obtain ⟨p, hp0, hp1, hpe⟩ := exists_trough hn0 hn1 hm hm0 he
  obtain ⟨s1, s2, s3⟩ := jpaG_shape hk0.le psi hn0 hn1 hm hm0 he hp0 hp1 hpe
  obtain ⟨M, hMe⟩ : ∃ M, M = ∫ t in (0 : ℝ)..(2 * π), jpaG kappa psi nu (t - xi) := ⟨_, rfl⟩
  rw [← hMe] at hM
  have hperG := jpaG_periodic kappa psi nu
  obtain ⟨V, hV, hVe⟩ := variation_dud (g := fun phi => jpaG kappa psi nu phi / M) hp0 hp1 (by linarith)
    (fun a ha b hb hab => div_le_div_of_nonneg_right (s1 ha hb hab) hM.le) (fun a ha b hb hab => div_le_div_of_nonneg_right (s2 ha hb hab) hM.le)
    (fun a ha b hb hab => div_le_div_of_nonneg_right (s3 ha hb hab) hM.le)
  have hperg : Function.Periodic (fun phi => jpaG kappa psi nu phi / M) (2 * π) := fun t => by
    show jpaG kappa psi nu (t + 2 * π) / M = _
    rw [hperG t]
  have hD := jpaDensity_eq hpsi hA nu xi
  rw [← hMe] at hD
  have hmass : ∫ t in (0 : ℝ)..(2 * π), jpaG kappa psi nu t / M = 1 := by
    have := (jpa_isCircularDensity xi kappa psi nu).mass
    rw [← hMe] at this
    rw [intervalIntegral.integral_comp_sub_right (fun t => jpaG kappa psi nu t / M)] at this
    have h2 := hperg.intervalIntegral_add_eq (0 - xi) 0
    rw [show 0 - xi + 2 * π = 2 * π - xi by ring, zero_add] at h2
    exact h2.symm.trans this
  have main := jpaCdf_error E (s := ⟨xi, kappa, psi, nu⟩) (g := fun phi => jpaG kappa psi nu phi / M) (V := V) ⟨⟨hx0, hx1⟩, hk0.le, hn0, hn1⟩
    (fun h => absurd h.1 (not_lt.2 hk)) ((jpaG_continuous kappa psi nu).div_const _) (fun t => div_pos (jpaG_pos _ _ _ _) hM) hperg hmass
    (fun j hj => jpaVals_eq (s := ⟨xi, kappa, psi, nu⟩) ⟨⟨hx0, hx1⟩, hk0.le, hn0, hn1⟩ hreg hperg (fun y => by
      rw [jpaPdf_eq (s := ⟨xi, kappa, psi, nu⟩) hk, hMe]) hj) hV h0 h1
  rw [hD]
  refine main.trans ?_
  have e1 : jpaG kappa psi nu (2 * π) = jpaG kappa psi nu 0 := by
    have := hperG 0
    rwa [zero_add] at this
  have h2 := hpeak (xi + (m + 2 * π))
  rw [hD] at h2
  simp only [show xi + (m + 2 * π) - xi = m + 2 * π by ring] at h2
  have h3 : 0 < jpaG kappa psi nu p / M := div_pos (jpaG_pos _ _ _ _) hM
  rw [hVe, e1]
  have hpi := pi_pos
  nlinarith [mul_pos hpi h3]

/-- **C116.** The distribution function differs from the exact one, the integral of the density from 0, by at
most `π/1024` times the largest value of the density. -/
theorem C116_cdf_error (E : JPEnv) {xi kappa psi nu : ℝ} (hx0 : 0 ≤ xi) (hx1 : xi ≤ 2 * π) (hk : 1 / 10 ^ 3 ≤ kappa)
    (hpsi : 1 / 10 ^ 6 ≤ |psi| ∨ psi = 0) (hA : |kappa * psi| ≤ 700) (hn0 : 0 ≤ nu) (hn1 : nu < 1) (hreg : GridRegular xi)
    {peak : ℝ} (hpeak : ∀ x, jpaDensity xi kappa psi nu x ≤ peak) {x : ℝ} (hx : RegularAngle x) :
    ∃ c, distCdf (jonespewseyAsym E) x ⟨xi, kappa, psi, nu⟩ = some c ∧
      |c - ∫ t in (0 : ℝ)..x, jpaDensity xi kappa psi nu t| ≤ π / 1024 * peak := by
  have hk0 : 0 < kappa := lt_of_lt_of_le (by norm_num) hk
  have hpi := pi_gt_three
  have ha : (jonespewseyAsym E).argcheck ⟨xi, kappa, psi, nu⟩ := ⟨⟨hx0, hx1⟩, hk0.le, hn0, hn1⟩
  obtain ⟨hd, hpos, -⟩ := C116_density E hx0 hx1 hk hpsi hA hn0 hn1
  have h14 : (0 : ℝ) < 1 / 10 ^ 14 := by positivity
  have hpk : 0 ≤ π / 1024 * peak := mul_nonneg (by positivity) ((hpos 0).le.trans (hpeak 0))
  obtain ⟨h0, h1 | h1⟩ := hx
  · rcases h0.lt_or_eq with h | h
    · exact ⟨_, distCdf_inner _ _ ha h h1, jpa_cdf_error E hx0 hx1 hk hpsi hA hn0 hn1 hreg hpeak h0 (by linarith [wrapTol_lt])⟩
    · refine ⟨0, ?_, ?_⟩
      · unfold distCdf
        rw [if_neg (not_not.2 ha), ← h, wrap2pi_zero, if_neg (by linarith), if_neg (lt_irrefl _)]
      · rw [← h, intervalIntegral.integral_same, sub_zero, abs_zero]; exact hpk
  · refine ⟨1, ?_, ?_⟩
    · unfold distCdf
      rw [if_neg (not_not.2 ha), h1, wrap2pi_two_pi, if_pos le_rfl]
    · rw [h1, hd.mass, sub_self, abs_zero]; exact hpk

theorem gridRegular_zero : GridRegular 0 := by
  intro j hj
  have hp := pi_gt_three
  rcases Nat.lt_or_ge j 4096 with h | h
  · have hj' : (j : ℝ) ≤ 4095 := by exact_mod_cast Nat.le_of_lt_succ h
    have hj0 : (0 : ℝ) ≤ j := by positivity
    rw [zero_add, pymod_eq_self two_pi_pos (by positivity) (by nlinarith)]
    refine ⟨by positivity, Or.inl ?_⟩
    have : (1 : ℝ) / 10 ^ 14 ≤ 1 / 4096 := by norm_num
    nlinarith
  · have : j = 4096 := le_antisymm hj h
    subst this
    rw [show (0 : ℝ) + ((4096 : ℕ) : ℝ) * (2 * π / 4096) = 0 + 2 * π by push_cast; ring]
    have e : pymod (0 + 2 * π) (2 * π) = 0 := (pymod_eq_iff two_pi_pos).2 ⟨le_rfl, two_pi_pos, -1, by push_cast; ring⟩
    rw [e]
    have : (1 : ℝ) / 10 ^ 14 ≤ 1 := by norm_num
    exact ⟨le_rfl, Or.inl (by linarith)⟩

/-- C116 at `ξ = 0`, `κ = 2`, `ψ = -1/2`, `ν = 3/4`. -/
example (E : JPEnv) : ∃ m, ∃ c, distCdf (jonespewseyAsym E) 1 ⟨0, 2, -1 / 2, 3 / 4⟩ = some c ∧
    |c - ∫ t in (0 : ℝ)..1, jpaDensity 0 2 (-1 / 2) (3 / 4) t| ≤ π / 1024 * jpaDensity 0 2 (-1 / 2) (3 / 4) (0 + m) := by
  have h1 : (1 : ℝ) / 10 ^ 6 ≤ |-1 / 2| := by norm_num [abs_of_pos]
  have h2 : |(2 : ℝ) * (-1 / 2)| ≤ 700 := by norm_num [abs_of_pos]
  obtain ⟨m, -, -, -, hm, -⟩ := C116_mode (xi := 0) (kappa := 2) (psi := -1 / 2) (nu := 3 / 4) (by norm_num) (Or.inl h1) h2 (by norm_num) (by norm_num)
  refine ⟨m, C116_cdf_error E le_rfl two_pi_pos.le (by norm_num) (Or.inl h1) h2 (by norm_num) (by norm_num) gridRegular_zero hm ⟨by norm_num, Or.inl ?_⟩⟩
  have : (1 : ℝ) / 10 ^ 14 ≤ 1 := by norm_num
  linarith [pi_gt_three]

/-- **C116.** For `kappa` below `1e-3` the object is the uniform distribution, whatever `psi` and `nu`. -/
theorem C116_small_kappa (E : JPEnv) {xi kappa psi nu : ℝ} (hx0 : 0 ≤ xi) (hx1 : xi ≤ 2 * π) (hk0 : 0 ≤ kappa) (hk : kappa < 1 / 10 ^ 3)
    (hn0 : 0 ≤ nu) (hn1 : nu < 1) :
    IsDistribution (fun x => distPdf (jonespewseyAsym E) x ⟨xi, kappa, psi, nu⟩)
      (fun x => distCdf (jonespewseyAsym E) x ⟨xi, kappa, psi, nu⟩) (fun _ => 1 / (2 * π)) := by
  have hp := two_pi_pos
  have hpdf : ∀ x, jpaPdf x ⟨xi, kappa, psi, nu⟩ = 1 / (2 * π) := fun x => by
    unfold jpaPdf
    rw [if_pos (by rw [abs_of_nonneg hk0]; exact hk)]
  have hmass : ∫ _ in (0 : ℝ)..(2 * π), 1 / (2 * π) = 1 := by
    rw [intervalIntegral.integral_const, smul_eq_mul]
    field_simp
    ring
  have ha : (jonespewseyAsym E).argcheck ⟨xi, kappa, psi, nu⟩ := ⟨⟨hx0, hx1⟩, hk0, hn0, hn1⟩
  refine isDistribution_of_family _ _ ha _ ⟨fun x _ _ => by positivity, by simp, hmass⟩ (fun x _ _ => hpdf x) ?_
  intro x h0 h1
  have h14 : (0 : ℝ) < 1 / 10 ^ 14 := by positivity
  have hx : x < 2 * π - wrapTol := by linarith [wrapTol_lt]
  show jpaCdf E x ⟨xi, kappa, psi, nu⟩ = _
  by_cases hn : kappa < jpKappaTol ∧ |nu| < 1 / 10 ^ 12
  · unfold jpaCdf
    simp only
    rw [if_pos hn, wrap2pi_self h0.le hx, (C104_small_kappa E hx0 hx1 hk0 hk).cdf_eq x ⟨h0.le, Or.inl h1⟩]
    rfl
  · have := jpaCdf_error E (s := ⟨xi, kappa, psi, nu⟩) (g := fun _ => 1 / (2 * π)) (V := fun _ => 0) ha hn continuous_const
      (fun _ => by positivity) (fun _ => rfl) hmass (fun j _ => by
        unfold jpaVals distPdf
        rw [if_neg (not_not.2 (show jpaBase.argcheck ⟨xi, kappa, psi, nu⟩ from ha)), if_pos (wrap2pi_mem _)]
        exact hpdf _) (fun _ _ _ _ _ => by simp) h0.le hx
    rw [sub_self, mul_zero] at this
    have := abs_nonpos_iff.1 this
    linarith

/-! ## C82: quantiles -/

/-- **C82.** The quantile method of the asymmetric family, for `xi` in `[0, 2π)`, and `kappa` from `1e-3` on or `nu` from `1e-12`
on (otherwise see `C116_small_kappa_ppf`). -/
theorem C82_jonespewsey_asym (E : JPEnv) {xi kappa psi nu : ℝ} (hx0 : 0 ≤ xi) (hx1 : xi < 2 * π)
    (hk : 1 / 10 ^ 3 ≤ kappa ∨ 1 / 10 ^ 12 ≤ nu) (qs : List ℝ) :
    (jpaPpf E qs ⟨xi, kappa, psi, nu⟩).length = qs.length ∧
    ∀ (i : ℕ) (q theta : ℝ), 1 / 10 ^ 15 ≤ q → q ≤ 1 - 1 / 10 ^ 15 → qs[i]? = some q →
      (jpaPpf E qs ⟨xi, kappa, psi, nu⟩)[i]? = some theta →
      SolvesQuantile (fun t => (distCdf (jonespewseyAsym E) t ⟨xi, kappa, psi, nu⟩).getD 0) q (2 * π / 2 ^ 30) theta := by
  have e : jpaPpf E qs ⟨xi, kappa, psi, nu⟩ = brSolve (fun t => (distCdf (jonespewseyAsym E) t ⟨xi, kappa, psi, nu⟩).getD 0)
      (fun t => (distPdf (jonespewseyAsym E) t ⟨xi, kappa, psi, nu⟩).getD 0) (fun x => clip x 0 (2 * π)) 8 30
      ((qs.map fun q => clip q (1 / 10 ^ 15) (1 - 1 / 10 ^ 15)).map fun q => (q, 2 * π * q)) := by
    unfold jpaPpf
    simp only
    rw [if_neg (fun h => hk.elim (fun hk => absurd h.1 (not_lt.2 (show jpKappaTol ≤ kappa from hk)))
      fun hn => absurd h.2 (not_lt.2 hn)), pymod_eq_self two_pi_pos hx0 hx1]
  rw [e]
  obtain ⟨h1, h2⟩ := jp_ppf_core (F := fun t => (distCdf (jonespewseyAsym E) t ⟨xi, kappa, psi, nu⟩).getD 0)
    (f := fun t => (distPdf (jonespewseyAsym E) t ⟨xi, kappa, psi, nu⟩).getD 0) qs
  refine ⟨h1, fun i q theta hq0 hq1 hq ht => ?_⟩
  have := h2 i q theta hq ht
  rwa [show clip q (1 / 10 ^ 15) (1 - 1 / 10 ^ 15) = q by unfold clip; rw [max_eq_left hq0, min_eq_left hq1]] at this

/-- **C116.** For `kappa` below `1e-3` and `nu` below `1e-12` the quantiles are those of the uniform distribution. -/
theorem C116_small_kappa_ppf (E : JPEnv) {xi kappa psi nu : ℝ} (hk : kappa < 1 / 10 ^ 3) (hn : nu < 1 / 10 ^ 12) (qs : List ℝ)
    (hq : ∀ q ∈ qs, 1 / 10 ^ 15 ≤ q ∧ q ≤ 1 - 1 / 10 ^ 15) :
    jpaPpf E qs ⟨xi, kappa, psi, nu⟩ = qs.map fun q => 2 * π * q := by
  unfold jpaPpf
  simp only
  rw [if_pos ⟨hk, hn⟩, List.map_map]
  refine List.map_congr_left fun q hqs => ?_
  obtain ⟨h0, h1⟩ := hq q hqs
  simp only [Function.comp, clip]
  rw [max_eq_left h0, min_eq_left h1]

/-- C116: median and upper quartile for `kappa = 0`. -/
example (E : JPEnv) : jpaPpf E [1 / 2, 3 / 4] ⟨1, 0, 2, 0⟩ = [π, 3 / 2 * π] := by
  rw [C116_small_kappa_ppf E (by norm_num) (by norm_num) _ (by norm_num)]
  simp only [List.map_cons, List.map_nil]
  congr 1
  · ring
  · congr 1
    ring

/-- **C116.** Consequently the exact mass of the density up to a returned quantile is the probability asked for, up to
`1e-12` plus `0.0031` times the largest value of the density. -/
theorem C116_ppf (E : JPEnv) {xi kappa psi nu : ℝ} (hx0 : 0 ≤ xi) (hx1 : xi < 2 * π) (hk : 1 / 10 ^ 3 ≤ kappa)
    (hpsi : 1 / 10 ^ 6 ≤ |psi| ∨ psi = 0) (hA : |kappa * psi| ≤ 700) (hn0 : 0 ≤ nu) (hn1 : nu < 1) (hreg : GridRegular xi)
    {peak : ℝ} (hpeak : ∀ x, jpaDensity xi kappa psi nu x ≤ peak) (qs : List ℝ) (i : ℕ) (q theta : ℝ) (hq0 : 1 / 10 ^ 15 ≤ q)
    (hq1 : q ≤ 1 - 1 / 10 ^ 15) (hq : qs[i]? = some q) (ht : (jpaPpf E qs ⟨xi, kappa, psi, nu⟩)[i]? = some theta) :
    (0 ≤ theta ∧ theta < 2 * π) ∧
    |(∫ t in (0 : ℝ)..theta, jpaDensity xi kappa psi nu t) - q| ≤ 1 / 10 ^ 12 + 31 / 10000 * peak := by
  have hk0 : 0 < kappa := lt_of_lt_of_le (by norm_num) hk
  have hp := two_pi_pos
  have hpi := pi_gt_three
  have hpi4 : π < 3.1416 := pi_lt_d4
  have ha : (jonespewseyAsym E).argcheck ⟨xi, kappa, psi, nu⟩ := ⟨⟨hx0, hx1.le⟩, hk0.le, hn0, hn1⟩
  obtain ⟨hd, hpos, -⟩ := C116_density E hx0 hx1.le hk hpsi hA hn0 hn1
  have hpk : 0 < peak := (hpos 0).trans_le (hpeak 0)
  have hcont : Continuous (jpaDensity xi kappa psi nu) := by
    rw [jpaDensity_eq hpsi hA]
    exact ((jpaG_continuous kappa psi nu).comp (continuous_id.sub continuous_const)).div_const _
  have hint : ∀ a b, IntervalIntegrable (jpaDensity xi kappa psi nu) volume a b := fun a b => hcont.intervalIntegrable a b
  obtain ⟨G, hG⟩ : ∃ G : ℝ → ℝ, G = fun u => ∫ t in (0 : ℝ)..u, jpaDensity xi kappa psi nu t := ⟨_, rfl⟩
  have hGb : ∀ a b, a ≤ b → 0 ≤ G b - G a ∧ G b - G a ≤ (b - a) * peak := by
    intro a b hab
    have e : G b - G a = ∫ t in a..b, jpaDensity xi kappa psi nu t := by
      rw [hG]; exact intervalIntegral.integral_interval_sub_left (hint _ _) (hint _ _)
    rw [e]
    refine ⟨intervalIntegral.integral_nonneg hab fun t _ => (hpos t).le, ?_⟩
    have := intervalIntegral.integral_mono_on hab (hint a b) (by simp : IntervalIntegrable (fun _ => peak) volume a b) fun t _ => hpeak t
    rwa [intervalIntegral.integral_const, smul_eq_mul] at this
  have hG0 : G 0 = 0 := by rw [hG]; simp
  have hG1 : G (2 * π) = 1 := by rw [hG]; exact hd.mass
  obtain ⟨F, hF⟩ : ∃ F : ℝ → ℝ, F = fun t => (distCdf (jonespewseyAsym E) t ⟨xi, kappa, psi, nu⟩).getD 0 := ⟨_, rfl⟩
  have herr : ∀ x, 0 ≤ x → x ≤ 2 * π → |F x - G x| ≤ (π / 1024 + 1 / 10 ^ 14) * peak := by
    intro x h0 h1
    have h14 : (0 : ℝ) < 1 / 10 ^ 14 := by positivity
    rw [hF]
    simp only
    unfold distCdf
    rw [if_neg (not_not.2 ha)]
    by_cases hx : x < 2 * π - wrapTol
    · rw [wrap2pi_self h0 hx, if_neg (by linarith [wrapTol_pos])]
      have hz := jpa_cdf_error E hx0 hx1.le hk hpsi hA hn0 hn1 hreg hpeak h0 hx
      rcases h0.lt_or_eq with h | h
      · rw [if_pos h]
        show |jpaCdf E x ⟨xi, kappa, psi, nu⟩ - G x| ≤ _
        rw [hG]
        refine hz.trans ?_
        nlinarith
      · rw [if_neg (by rw [← h]; exact lt_irrefl _), ← h, hG0]
        simp only [Option.getD_some, sub_self, abs_zero]
        positivity
    · have hcl : wrap2pi x = 2 * π := wrap2pi_close (by rw [abs_sub_comm, abs_of_nonneg (by linarith)]; linarith)
      rw [hcl, if_pos le_rfl]
      show |1 - G x| ≤ _
      obtain ⟨c0, c1⟩ := hGb x (2 * π) h1
      rw [hG1] at c0 c1
      rw [abs_of_nonneg c0]
      have := wrapTol_lt
      refine c1.trans ?_
      have hpi' := pi_pos
      have h2 : 2 * π - x ≤ 1 / 10 ^ 14 := by linarith [not_lt.1 hx]
      have h3 : (2 * π - x) * peak ≤ 1 / 10 ^ 14 * peak := mul_le_mul_of_nonneg_right h2 hpk.le
      have h4 : 0 ≤ π / 1024 * peak := by positivity
      linarith
  obtain ⟨hr, hsol⟩ := (C82_jonespewsey_asym E (psi := psi) (nu := nu) hx0 hx1 (Or.inl hk) qs).2 i q theta hq0 hq1 hq ht
  rw [← hF] at hsol
  refine ⟨hr, ?_⟩
  have goal : |G theta - q| ≤ 1 / 10 ^ 12 + 31 / 10000 * peak := by
    rcases hsol with h | ⟨L, H, hL0, hLH, hH, hw, hm, hLq, hHq⟩
    · have e := abs_le.1 (herr theta hr.1 hr.2.le)
      have h := abs_le.1 h
      have hc : (π / 1024 + 1 / 10 ^ 14) * peak ≤ 31 / 10000 * peak := mul_le_mul_of_nonneg_right (by norm_num; linarith) hpk.le
      exact abs_le.2 ⟨by linarith [e.2, h.1], by linarith [e.1, h.2]⟩
    · have eL := abs_le.1 (herr L hL0 (hLH.trans hH))
      have eH := abs_le.1 (herr H (hL0.trans hLH) hH)
      obtain ⟨l0, l1⟩ := hGb L theta (by linarith)
      obtain ⟨r0, r1⟩ := hGb theta H (by linarith)
      have hc : (π / 1024 + 1 / 10 ^ 14) * peak + 2 * π / 2 ^ 30 * peak ≤ 31 / 10000 * peak := by
        rw [← add_mul]
        exact mul_le_mul_of_nonneg_right (by norm_num; linarith) hpk.le
      have w1 : (theta - L) * peak ≤ 2 * π / 2 ^ 30 * peak := mul_le_mul_of_nonneg_right (by linarith) hpk.le
      have w2 : (H - theta) * peak ≤ 2 * π / 2 ^ 30 * peak := mul_le_mul_of_nonneg_right (by linarith) hpk.le
      have q15 : (0 : ℝ) < 1 / 10 ^ 15 := by positivity
      have hGL : G L ≤ q + (π / 1024 + 1 / 10 ^ 14) * peak := by
        rcases hLq with h | h
        · rw [h, hG0]; have : 0 ≤ (π / 1024 + 1 / 10 ^ 14) * peak := by positivity
          linarith
        · linarith [eL.1]
      have hGH : q - (π / 1024 + 1 / 10 ^ 14) * peak ≤ G H := by
        rcases hHq with h | h
        · rw [h, hG1]; have : 0 ≤ (π / 1024 + 1 / 10 ^ 14) * peak := by positivity
          linarith
        · linarith [eH.2]
      have q12 : (0 : ℝ) < 1 / 10 ^ 12 := by positivity
      exact abs_le.2 ⟨by linarith, by linarith⟩
  rw [hG] at goal
  exact goal

end Verif
