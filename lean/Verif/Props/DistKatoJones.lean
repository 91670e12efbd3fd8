import Verif.Lemmas.KatoJones
import Verif.Lemmas.Distn
import Verif.Props.DistCauchy
import Verif.Props.DistVonMisesB

/-! # Properties C78 and C80: the Kato-Jones density, its moments and its distribution function -/

set_option autoImplicit false

namespace Verif

open Real MeasureTheory Verif.Spec

/-! ## The density -/

theorem kj_regular {x : ℝ} (hx : RegularAngle x) : wrap2pi x = x := by
  obtain ⟨a, b | b⟩ := hx
  · exact wrap2pi_self a (by linarith [wrapTol_lt])
  · rw [b]; exact wrap2pi_two_pi

/-- **C78.** For parameters in range that satisfy the feasibility constraint exactly (and
`rho ≤ 1 - 4e-8`), `pdf` is the Kato-Jones density, it is non-negative and has total mass 1. -/
theorem C78_density {mu gamma rho lam : ℝ} (hm0 : 0 ≤ mu) (hm1 : mu < 2 * π) (hg0 : 0 ≤ gamma) (hg1 : gamma < 1)
    (hr0 : 0 ≤ rho) (hr1 : rho ≤ 1 - 4 / 10 ^ 8) (hl0 : 0 ≤ lam) (hl1 : lam < 2 * π)
    (hf : (rho * cos lam - gamma) ^ 2 + (rho * sin lam) ^ 2 ≤ (1 - gamma) ^ 2) :
    IsCircularDensity (kjDensity mu gamma rho lam) ∧
    ∀ x, RegularAngle x → distPdf katojones x ⟨mu, gamma, rho, lam⟩ = some (kjDensity mu gamma rho lam x) := by
  have hr : rho < 1 := lt_of_le_of_lt hr1 (by norm_num)
  refine ⟨⟨fun x _ _ => kj_nonneg hr0 hr hg0 hg1 mu lam x hf,
    (kjDensity_continuous hr0 hr mu gamma lam).intervalIntegrable _ _, kj_mass hr0 hr mu gamma lam⟩, ?_⟩
  intro x hx
  have harg : katojones.argcheck ⟨mu, gamma, rho, lam⟩ :=
    ⟨⟨hm0, hm1⟩, ⟨hg0, hg1⟩, ⟨hr0, hr⟩, ⟨hl0, hl1⟩, hf.trans (by simp only; linarith [show (0 : ℝ) < 1 / 10 ^ 12 by positivity])⟩
  unfold distPdf
  rw [if_neg (not_not.mpr harg), if_pos (wrap2pi_mem x), kj_regular hx]
  exact congrArg some (kjPdf_eq (s := ⟨mu, gamma, rho, lam⟩) hr0 hr1 hg0 hg1 hf x)

example : ∃ gamma rho lam : ℝ, 0 < gamma ∧ gamma < 1 ∧ 0 < rho ∧ rho ≤ 1 - 4 / 10 ^ 8 ∧ 0 < lam ∧ lam < 2 * π ∧
    (rho * cos lam - gamma) ^ 2 + (rho * sin lam) ^ 2 ≤ (1 - gamma) ^ 2 := by
  refine ⟨1 / 2, 1 / 4, π / 3, by norm_num, by norm_num, by norm_num, by norm_num, by positivity,
    by linarith [pi_pos], ?_⟩
  have := sq_sqrt (show (0 : ℝ) ≤ 3 by norm_num)
  rw [cos_pi_div_three, sin_pi_div_three]; nlinarith

/-- **C78.** The constraint is exactly the right one: parameters that violate it give a function with
negative values, which is not a density. -/
theorem C78_constraint_exact {mu gamma rho lam : ℝ} (hg0 : 0 ≤ gamma) (hg1 : gamma < 1) (hr0 : 0 ≤ rho)
    (hr1 : rho < 1) :
    (∀ x, 0 ≤ kjDensity mu gamma rho lam x) ↔
      (rho * cos lam - gamma) ^ 2 + (rho * sin lam) ^ 2 ≤ (1 - gamma) ^ 2 := by
  constructor
  · intro h
    by_contra hc
    obtain ⟨x, hx⟩ := kj_neg_exists hr0 hr1 hg0 hg1 mu lam (not_le.1 hc)
    exact absurd (h x) (not_le.2 hx)
  · exact fun h x => kj_nonneg hr0 hr1 hg0 hg1 mu lam x h

/-- **C78.** Parameters that break the constraint by more than `1e-12` are refused: `pdf` is `nan`. -/
theorem C78_refused {mu gamma rho lam : ℝ}
    (hf : (1 - gamma) ^ 2 + 1 / 10 ^ 12 < (rho * cos lam - gamma) ^ 2 + (rho * sin lam) ^ 2) (x : ℝ) :
    distPdf katojones x ⟨mu, gamma, rho, lam⟩ = none := by
  unfold distPdf
  rw [if_pos]
  rintro ⟨-, -, -, -, h⟩
  exact absurd h (not_le.2 hf)

example : (1 - (1 / 2 : ℝ)) ^ 2 + 1 / 10 ^ 12 < (3 / 4 * cos (π / 2) - 1 / 2) ^ 2 + (3 / 4 * sin (π / 2)) ^ 2 := by
  rw [cos_pi_div_two, sin_pi_div_two]; norm_num

/-- **C78.** The closed-form trigonometric moments `γ ρ^(p-1) exp(i(pμ + (p-1)λ))` returned by
`trig_moment(p)` are the moments of the density, for every order `p`. -/
theorem C78_moments {mu gamma rho lam : ℝ} (hg0 : 0 ≤ gamma) (hg1 : gamma < 1)
    (hr0 : 0 ≤ rho) (hr1 : rho ≤ 1 - 4 / 10 ^ 8)
    (hf : (rho * cos lam - gamma) ^ 2 + (rho * sin lam) ^ 2 ≤ (1 - gamma) ^ 2) (p : ℕ) :
    kjTrigMoment p ⟨mu, gamma, rho, lam⟩
      = ⟨∫ x in (0 : ℝ)..(2 * π), kjDensity mu gamma rho lam x * cos (p * x),
         ∫ x in (0 : ℝ)..(2 * π), kjDensity mu gamma rho lam x * sin (p * x)⟩ ∧
    kjTrigMoment (-p) ⟨mu, gamma, rho, lam⟩
      = ⟨∫ x in (0 : ℝ)..(2 * π), kjDensity mu gamma rho lam x * cos (p * x),
         -∫ x in (0 : ℝ)..(2 * π), kjDensity mu gamma rho lam x * sin (p * x)⟩ ∧
    distTrigMoment katojones p ⟨mu, gamma, rho, lam⟩ = kjTrigMoment p ⟨mu, gamma, rho, lam⟩ := by
  have hr : rho < 1 := lt_of_le_of_lt hr1 (by norm_num)
  have key : kjTrigMoment p ⟨mu, gamma, rho, lam⟩
      = ⟨∫ x in (0 : ℝ)..(2 * π), kjDensity mu gamma rho lam x * cos (p * x),
         ∫ x in (0 : ℝ)..(2 * π), kjDensity mu gamma rho lam x * sin (p * x)⟩ ∧
      kjTrigMoment (-p) ⟨mu, gamma, rho, lam⟩
      = ⟨∫ x in (0 : ℝ)..(2 * π), kjDensity mu gamma rho lam x * cos (p * x),
         -∫ x in (0 : ℝ)..(2 * π), kjDensity mu gamma rho lam x * sin (p * x)⟩ := by
    rcases p with _ | n
    · have h := kj_mass hr0 hr mu gamma lam
      unfold kjTrigMoment
      simp only [Nat.cast_zero, neg_zero, if_pos]
      constructor <;> apply Complex.ext <;> simp [h]
    · rw [kj_moment_cos hr0 hr, kj_moment_sin hr0 hr]
      have e : (if n + 1 = 1 then gamma else gamma * rho ^ (n + 1 - 1)) = gamma * rho ^ n := by
        rcases n with _ | n
        · simp
        · rw [if_neg (by omega)]; rfl
      have e2 : ((n + 1 : ℕ) : ℝ) * mu + (((n + 1 : ℕ) : ℝ) - 1) * lam = (n + 1) * mu + n * lam := by
        push_cast; ring
      have e3 : ∀ a b : ℝ, (a : ℂ) * Complex.exp (Complex.I * (b : ℂ)) = ⟨a * cos b, a * sin b⟩ := by
        intro a b
        rw [mul_comm Complex.I, Complex.exp_mul_I, ← Complex.ofReal_cos, ← Complex.ofReal_sin]
        apply Complex.ext
        · simp only [Complex.mul_re, Complex.add_re, Complex.add_im, Complex.mul_im, Complex.ofReal_re,
            Complex.ofReal_im, Complex.I_re, Complex.I_im]; ring
        · simp only [Complex.mul_re, Complex.add_re, Complex.add_im, Complex.mul_im, Complex.ofReal_re,
            Complex.ofReal_im, Complex.I_re, Complex.I_im]; ring
      unfold kjTrigMoment
      simp only
      constructor
      · rw [if_neg (by omega), if_neg (by omega), Int.natAbs_natCast, e, e2, e3]
      · rw [if_neg (by omega), if_pos (by omega), Int.natAbs_neg, Int.natAbs_natCast, e, e2, e3]
        rfl
  refine ⟨key.1, key.2, ?_⟩
  rw [key.1]
  unfold distTrigMoment
  have : ∀ x, katojones.pdf x ⟨mu, gamma, rho, lam⟩ = kjDensity mu gamma rho lam x :=
    fun x => kjPdf_eq (s := ⟨mu, gamma, rho, lam⟩) hr0 hr1 hg0 hg1 hf x
  simp only [this]

/-! ## The distribution function -/

theorem kjClean_self {s : KJ} (hm0 : 0 ≤ s.mu) (hm1 : s.mu < 2 * π) (hg0 : 0 ≤ s.gamma)
    (hg1 : s.gamma ≤ 1 - 1 / 10 ^ 12) (hr0 : 0 ≤ s.rho) (hr1 : s.rho ≤ 1 - 1 / 10 ^ 12) (hl0 : 0 ≤ s.lam)
    (hl1 : s.lam < 2 * π) : kjClean s = s := by
  unfold kjClean clip
  rw [pymod_eq_self two_pi_pos hm0 hm1, pymod_eq_self two_pi_pos hl0 hl1, max_eq_left hg0, max_eq_left hr0,
    min_eq_left hg1, min_eq_left hr1]

theorem kj_not_close {x : ℝ} (hx0 : 1 / 10 ^ 12 < x) (hx1 : x ≤ 2 * π - 7 / 10 ^ 5) :
    ¬ isclose x (2 * π) rtolDefault (1 / 10 ^ 12) ∧ ¬ isclose x 0 rtolDefault (1 / 10 ^ 12) := by
  have hpi := pi_lt_d2
  unfold isclose rtolDefault
  constructor
  · rw [not_le, abs_of_pos (by positivity), abs_of_neg (by linarith [show (0 : ℝ) < 7 / 10 ^ 5 by positivity])]
    norm_num at hx1 hpi ⊢
    linarith
  · rw [not_le, abs_zero, mul_zero, add_zero, sub_zero, abs_of_pos (lt_trans (by positivity) hx0)]
    exact hx0

theorem kjCdf_inner {s : KJ} (hc : kjClean s = s) (hg : 1 / 10 ^ 12 < s.gamma) {x : ℝ} (hx0 : 1 / 10 ^ 12 < x)
    (hx1 : x ≤ 2 * π - 7 / 10 ^ 5) : kjCdf x s = pymod (kjSeries x s) 1 := by
  obtain ⟨h1, h2⟩ := kj_not_close hx0 hx1
  unfold kjCdf
  simp only [hc]
  rw [if_neg h1, if_neg h2, if_neg (not_le.2 hg)]
  have := pymod_nonneg one_pos (kjSeries x s)
  have := pymod_lt one_pos (kjSeries x s)
  unfold clip
  rw [max_eq_left (by linarith), min_eq_left (by linarith)]

theorem pymod_one_near {a : ℝ} (h0 : 0 ≤ a) (h1 : a < 1) : pymod a 1 = a := pymod_eq_self one_pos h0 h1

/-- **C80.** For `1e-12 < gamma ≤ 1 - 1e-12` and `1e-12 < rho ≤ 0.995` the distribution function is within
`1e-12` of the integral of the density at every angle up to `2π - 7e-5` whose probability is not within
`1e-12` of 0 or 1. -/
theorem C80_cdf {mu gamma rho lam x : ℝ} (hm0 : 0 ≤ mu) (hm1 : mu < 2 * π) (hg0 : 1 / 10 ^ 12 < gamma)
    (hg1 : gamma ≤ 1 - 1 / 10 ^ 12) (hr0 : 1 / 10 ^ 12 < rho) (hr1 : rho ≤ 0.995) (hl0 : 0 ≤ lam) (hl1 : lam < 2 * π)
    (hf : (rho * cos lam - gamma) ^ 2 + (rho * sin lam) ^ 2 ≤ (1 - gamma) ^ 2)
    (hx0 : 1 / 10 ^ 12 < x) (hx1 : x ≤ 2 * π - 7 / 10 ^ 5)
    (hp0 : 1 / 10 ^ 12 ≤ ∫ t in (0 : ℝ)..x, kjDensity mu gamma rho lam t)
    (hp1 : ∫ t in (0 : ℝ)..x, kjDensity mu gamma rho lam t < 1 - 1 / 10 ^ 12) :
    ∃ c, distCdf katojones x ⟨mu, gamma, rho, lam⟩ = some c ∧
      |c - ∫ t in (0 : ℝ)..x, kjDensity mu gamma rho lam t| ≤ 1 / 10 ^ 12 := by
  have h12 : (0 : ℝ) < 1 / 10 ^ 12 := by positivity
  have hr2 : rho ≤ 1 - 1 / 10 ^ 12 := hr1.trans (by norm_num)
  have hx2 : x ≤ 2 * π - 1 / 10 ^ 14 := by
    have : (1 : ℝ) / 10 ^ 14 ≤ 7 / 10 ^ 5 := by norm_num
    linarith
  set s : KJ := ⟨mu, gamma, rho, lam⟩ with hs
  have harg : katojones.argcheck s :=
    ⟨⟨hm0, hm1⟩, ⟨by show 0 ≤ gamma; linarith, by show gamma < 1; linarith⟩,
      ⟨by show 0 ≤ rho; linarith, by show rho < 1; linarith⟩, ⟨hl0, hl1⟩, hf.trans (by show _ ≤ (1 - gamma) ^ 2 + _; linarith)⟩
  have hc : kjClean s = s := kjClean_self hm0 hm1 (by show 0 ≤ gamma; linarith) hg1 (by show 0 ≤ rho; linarith) hr2 hl0 hl1
  have hs := kjSeries_err (s := s) hg0 hg1 hr0 hr1 x
  refine ⟨_, distCdf_inner katojones s harg (by linarith) hx2, ?_⟩
  show |kjCdf x s - _| ≤ _
  rw [kjCdf_inner hc hg0 hx0 hx1, pymod_one_near]
  · exact hs
  · linarith [(abs_le.1 hs).1, hp0]
  · linarith [(abs_le.1 hs).2, hp1]

/-- **C80.** When the density is at least `2e-9` everywhere, the distribution function is within `1e-12`
of the integral of the density at all angles between `1e-12` and `2π - 7e-5`, and it increases. -/
theorem C80_cdf_increasing {mu gamma rho lam : ℝ} (hm0 : 0 ≤ mu) (hm1 : mu < 2 * π) (hg0 : 1 / 10 ^ 12 < gamma)
    (hg1 : gamma ≤ 1 - 1 / 10 ^ 12) (hr0 : 1 / 10 ^ 12 < rho) (hr1 : rho ≤ 0.995) (hl0 : 0 ≤ lam) (hl1 : lam < 2 * π)
    (hd : ∀ t, 2 / 10 ^ 9 ≤ kjDensity mu gamma rho lam t) :
    ∃ F : ℝ → ℝ, (∀ x, 0 ≤ x → x ≤ 2 * π - 1 / 10 ^ 14 → distCdf katojones x ⟨mu, gamma, rho, lam⟩ = some (F x)) ∧
      (∀ x, 1 / 10 ^ 12 < x → x ≤ 2 * π - 7 / 10 ^ 5 →
        |F x - ∫ t in (0 : ℝ)..x, kjDensity mu gamma rho lam t| ≤ 1 / 10 ^ 12) ∧
      (∀ x, 0 ≤ x → x ≤ 1 / 10 ^ 12 → F x = 0) ∧
      (∀ x y, 1 / 10 ^ 12 < x → x < y → y ≤ 2 * π - 7 / 10 ^ 5 → 0 < F x ∧ F x < F y ∧ F y < 1) := by
  have h12 : (0 : ℝ) < 1 / 10 ^ 12 := by positivity
  have h14 : (0 : ℝ) < 1 / 10 ^ 14 := by positivity
  have h5 : (0 : ℝ) < 7 / 10 ^ 5 := by positivity
  have hr2 : rho ≤ 1 - 1 / 10 ^ 12 := hr1.trans (by norm_num)
  set s : KJ := ⟨mu, gamma, rho, lam⟩ with hs
  have hf := (C78_constraint_exact (mu := mu) (lam := lam) (gamma := gamma) (rho := rho) (by linarith) (by linarith)
    (by linarith) (by linarith)).1 (fun x => le_trans (by positivity) (hd x))
  have harg : katojones.argcheck s :=
    ⟨⟨hm0, hm1⟩, ⟨by show 0 ≤ gamma; linarith, by show gamma < 1; linarith⟩,
      ⟨by show 0 ≤ rho; linarith, by show rho < 1; linarith⟩, ⟨hl0, hl1⟩, hf.trans (by show _ ≤ (1 - gamma) ^ 2 + _; linarith)⟩
  have hc : kjClean s = s := kjClean_self hm0 hm1 (by show 0 ≤ gamma; linarith) hg1 (by show 0 ≤ rho; linarith) hr2 hl0 hl1
  have hmono := kjPartial_mono (mu := mu) (lam := lam) (gamma := gamma) (rho := rho) (by linarith) (by linarith) (by linarith) hr1 hd
  have hser : ∀ x, kjSeries x s = kjPartial mu gamma rho lam (kjTerms gamma rho) x := fun x =>
    kjSeries_eq (s := s) hg0 hg1 hr0 hr2 x
  obtain ⟨e0, e1⟩ := kjPartial_ends mu gamma rho lam (kjTerms gamma rho)
  have hval : ∀ x, 1 / 10 ^ 12 < x → x ≤ 2 * π - 7 / 10 ^ 5 →
      kjCdf x s = kjPartial mu gamma rho lam (kjTerms gamma rho) x ∧
      0 < kjPartial mu gamma rho lam (kjTerms gamma rho) x ∧ kjPartial mu gamma rho lam (kjTerms gamma rho) x < 1 := by
    intro x hx0 hx1
    have p0 : 0 < kjPartial mu gamma rho lam (kjTerms gamma rho) x := by
      rw [← e0]; exact hmono (by linarith)
    have p1 : kjPartial mu gamma rho lam (kjTerms gamma rho) x < 1 := by
      rw [← e1]; exact hmono (by linarith)
    refine ⟨?_, p0, p1⟩
    rw [kjCdf_inner hc hg0 hx0 hx1, hser, pymod_one_near p0.le p1]
  refine ⟨fun x => if x = 0 then 0 else kjCdf x s, ?_, ?_, ?_, ?_⟩
  · intro x hx0 hx1
    rcases hx0.eq_or_lt with h | h
    · subst h
      unfold distCdf
      rw [if_neg (not_not.mpr harg), wrap2pi_zero, if_neg (by linarith [pi_pos]), if_neg (lt_irrefl _)]
      simp
    · simp only [if_neg h.ne']
      exact distCdf_inner katojones s harg h hx1
  · intro x hx0 hx1
    simp only [if_neg (show x ≠ 0 by linarith)]
    rw [(hval x hx0 hx1).1, ← hser]
    exact kjSeries_err (s := s) hg0 hg1 hr0 hr1 x
  · intro x hx0 hx1
    by_cases h : x = 0
    · simp only [if_pos h]
    · simp only [if_neg h]
      have hpi := pi_gt_three
      unfold kjCdf
      simp only [hc]
      rw [if_neg, if_pos]
      · unfold isclose rtolDefault
        rw [sub_zero, abs_of_nonneg hx0]; simpa using hx1
      · unfold isclose rtolDefault
        have : (1 : ℝ) / 10 ^ 12 < 1 := by norm_num
        rw [not_le, abs_of_pos (show 0 < 2 * π by positivity), abs_of_neg (by linarith)]
        norm_num at hx1 ⊢
        linarith
  · intro x y hx0 hxy hy1
    obtain ⟨a, b, -⟩ := hval x hx0 (by linarith)
    obtain ⟨a', -, c⟩ := hval y (by linarith) hy1
    simp only [if_neg (show x ≠ 0 by linarith), if_neg (show y ≠ 0 by linarith)]
    rw [a, a']
    exact ⟨b, hmono hxy, c⟩

/-- A density bounded below: `gamma = 1/4`, `rho = 1/4`. -/
example : ∀ t, 2 / 10 ^ 9 ≤ kjDensity 1 (1 / 4) (1 / 4) 0 t := by
  intro t
  unfold kjDensity
  have h1 := neg_one_le_cos (t - 1)
  have h2 := cos_le_one (t - 1)
  have hpi := pi_lt_d2
  have hp := pi_pos
  rw [cos_zero, sub_zero]
  set c := cos (t - 1)
  have hD : 0 < 1 + (1 / 4 : ℝ) ^ 2 - 2 * (1 / 4) * c := by linarith
  have : (1 / 2 : ℝ) ≤ 1 + 2 * (1 / 4) * (c - 1 / 4 * 1) / (1 + (1 / 4) ^ 2 - 2 * (1 / 4) * c) := by
    rw [show (1 : ℝ) + 2 * (1 / 4) * (c - 1 / 4 * 1) / (1 + (1 / 4) ^ 2 - 2 * (1 / 4) * c)
      = (1 + (1 / 4) ^ 2 - 2 * (1 / 4) * c + 2 * (1 / 4) * (c - 1 / 4 * 1)) / (1 + (1 / 4) ^ 2 - 2 * (1 / 4) * c) by
        rw [add_div, div_self hD.ne'], le_div_iff₀ hD]
    linarith
  rw [le_div_iff₀ (by positivity)]
  norm_num at hpi ⊢
  linarith

/-- **C80.** The claim fails for `rho ≤ 1e-12` (for instance the cardioid case `rho = 0`): `cdf` is the
uniform distribution function `x/(2π)` although the density is not uniform; for `rho = 0` the integral of
the density differs from it by `(γ/π)(sin(x - μ) + sin μ)`. -/
theorem C80_small_rho_uniform {mu gamma rho lam x : ℝ} (hm0 : 0 ≤ mu) (hm1 : mu < 2 * π) (hg0 : 1 / 10 ^ 12 < gamma)
    (hg1 : gamma ≤ 1 - 1 / 10 ^ 12) (hr0 : 0 ≤ rho) (hr1 : rho ≤ 1 / 10 ^ 12) (hl0 : 0 ≤ lam) (hl1 : lam < 2 * π)
    (hf : (rho * cos lam - gamma) ^ 2 + (rho * sin lam) ^ 2 ≤ (1 - gamma) ^ 2)
    (hx0 : 1 / 10 ^ 12 < x) (hx1 : x ≤ 2 * π - 7 / 10 ^ 5) :
    distCdf katojones x ⟨mu, gamma, rho, lam⟩ = some (x / (2 * π)) ∧
    (rho = 0 → ∫ t in (0 : ℝ)..x, kjDensity mu gamma rho lam t
      = x / (2 * π) + gamma / π * (sin (x - mu) + sin mu)) := by
  have h12 : (0 : ℝ) < 1 / 10 ^ 12 := by positivity
  have h12' : (1 : ℝ) / 10 ^ 12 < 1 / 2 := by norm_num
  have h5 : (0 : ℝ) < 7 / 10 ^ 5 := by positivity
  have hx2 : x ≤ 2 * π - 1 / 10 ^ 14 := by
    have : (1 : ℝ) / 10 ^ 14 ≤ 7 / 10 ^ 5 := by norm_num
    linarith
  have hpi := pi_pos
  set s : KJ := ⟨mu, gamma, rho, lam⟩ with hs
  have harg : katojones.argcheck s :=
    ⟨⟨hm0, hm1⟩, ⟨by show 0 ≤ gamma; linarith, by show gamma < 1; linarith⟩,
      ⟨hr0, by show rho < 1; linarith⟩, ⟨hl0, hl1⟩, hf.trans (by show _ ≤ (1 - gamma) ^ 2 + _; linarith)⟩
  have hc : kjClean s = s := kjClean_self hm0 hm1 (by show 0 ≤ gamma; linarith) hg1 hr0 (by show rho ≤ _; linarith) hl0 hl1
  constructor
  · rw [distCdf_inner katojones s harg (by linarith) hx2]
    show some (kjCdf x s) = _
    rw [kjCdf_inner hc hg0 hx0 hx1]
    unfold kjSeries
    rw [if_pos (Or.inr hr1), pymod_one_near (div_nonneg (by linarith) (by positivity))]
    rw [div_lt_one (by positivity)]; linarith
  · rintro rfl
    have h := kj_integral le_rfl one_pos mu gamma lam x
    have h2 := hasSum_single (f := fun p : ℕ => gamma / π * ((0 : ℝ) ^ p * ((sin ((p + 1) * x - ((p + 1) * mu + p * lam))
        + sin ((p + 1) * mu + p * lam)) / (p + 1)))) 0 (by
      intro n hn
      rw [zero_pow hn]; ring)
    have := h.unique h2
    simp only [pow_zero, Nat.cast_zero, zero_add, one_mul, zero_mul, add_zero, div_one] at this
    linarith

/-- The two differ: with `mu = π/2`, `gamma = 1/2` the probability of `[0, π]` is `1/2 + 1/π`, not `1/2`. -/
example : distCdf katojones π ⟨π / 2, 1 / 2, 0, 0⟩ = some (1 / 2) ∧
    ∫ t in (0 : ℝ)..π, kjDensity (π / 2) (1 / 2) 0 0 t = 1 / 2 + 1 / π := by
  have hpi := pi_gt_three
  obtain ⟨a, b⟩ := C80_small_rho_uniform (mu := π / 2) (gamma := 1 / 2) (rho := 0) (lam := 0) (x := π)
    (by positivity) (by linarith) (by norm_num) (by norm_num) le_rfl (by positivity) le_rfl (by positivity)
    (by norm_num) (lt_trans (by norm_num) hpi) (by norm_num; linarith)
  have e : π / (2 * π) = 1 / 2 := by field_simp
  rw [a, b rfl, e, show π - π / 2 = π / 2 by ring, sin_pi_div_two]
  refine ⟨rfl, ?_⟩
  ring

/-! ### The series wraps below 0 -/

theorem kjCount_eq {gamma rho : ℝ} {Q : ℕ} (hQ : gamma / (max Q 1 : ℕ) * rho ^ (Q - 1) / max (1 / 10 ^ 12) (1 - rho) ≤ 1 / 10 ^ 12)
    (k P : ℕ) (hP : P ≤ Q) (hk : Q ≤ P + k)
    (hn : ∀ j, P ≤ j → j < Q → ¬ gamma / (max j 1 : ℕ) * rho ^ (j - 1) / max (1 / 10 ^ 12) (1 - rho) ≤ 1 / 10 ^ 12) :
    kjCount gamma rho k P = Q := by
  induction k generalizing P with
  | zero => unfold kjCount; omega
  | succ k ih =>
    unfold kjCount
    rcases hP.eq_or_lt with h | h
    · subst h; rw [if_pos hQ]
    · rw [if_neg (hn P le_rfl h)]
      exact ih (P + 1) h (by omega) fun j h1 h2 => hn j (by omega) h2

theorem kjTerms_example : kjTerms (3 / 4) (1 / 2) = 37 := by
  have hm : max ((1 : ℝ) / 10 ^ 12) (1 - 1 / 2) = 1 / 2 := by rw [max_eq_right] <;> norm_num
  unfold kjTerms
  rw [if_neg (by norm_num), kjCount_eq (Q := 37) _ 5000 1 (by norm_num) (by norm_num)]
  · norm_num
  · intro j h1 h2
    rw [hm]
    interval_cases j <;> norm_num
  · rw [hm]; norm_num

theorem kjExample_term (y : ℝ) (p : ℕ) :
    (3 / 4 : ℝ) / π * ((1 / 2) ^ p * ((sin (((p : ℝ) + 1) * y - ((p + 1) * π + p * 0))
        + sin ((p + 1) * π + p * 0)) / (p + 1)))
      = (3 / 4) / π * (-(-1 / 2) ^ p * (sin ((p + 1) * y) / (p + 1))) := by
  have e : ((p : ℝ) + 1) * π + p * 0 = ((p + 1 : ℕ) : ℝ) * π := by push_cast; ring
  rw [e, sin_nat_mul_pi, sin_sub_nat_mul_pi, add_zero, show (-1 / 2 : ℝ) = (-1) * (1 / 2) by norm_num, mul_pow, pow_succ]
  ring

theorem kjExample_neg : kjPartial π (3 / 4) (1 / 2) 0 37 (1 / 10 ^ 7) < 0 := by
  have hpi := pi_pos
  have hs := kjExample_term (1 / 10 ^ 7)
  have hb : ∀ p ∈ Finset.range 37, -(-1 / 2 : ℝ) ^ p * (sin (((p : ℝ) + 1) * (1 / 10 ^ 7)) / (p + 1))
      ≤ -(-1 / 2) ^ p * (1 / 10 ^ 7) + (1 / 2) ^ p * ((p + 1) ^ 2 * (1 / 10 ^ 7) ^ 3 / 4) := by
    intro p hp
    have hp1 : (0 : ℝ) < p + 1 := by positivity
    have hy0 : (0 : ℝ) < (p + 1) * (1 / 10 ^ 7) := by positivity
    have s1 := sin_lt hy0
    have s2 := sin_gt_sub_cube hy0
    have b1 : sin (((p : ℝ) + 1) * (1 / 10 ^ 7)) / (p + 1) ≤ 1 / 10 ^ 7 := by
      rw [div_le_iff₀ hp1]; linarith
    have b2 : 1 / 10 ^ 7 - (p + 1) ^ 2 * (1 / 10 ^ 7) ^ 3 / 4 ≤ sin (((p : ℝ) + 1) * (1 / 10 ^ 7)) / (p + 1) := by
      rw [le_div_iff₀ hp1]
      refine le_trans ?_ s2.le
      have h6 : (0 : ℝ) ≤ (p + 1) ^ 3 * (1 / 10 ^ 7) ^ 3 := by positivity
      rw [mul_pow]
      linarith
    have hq : (0 : ℝ) < (1 / 2) ^ p := by positivity
    rcases Nat.even_or_odd p with h | h
    · rw [show (-1 / 2 : ℝ) = -(1 / 2) by norm_num, h.neg_pow]
      have := mul_le_mul_of_nonneg_left b2 hq.le
      linarith
    · rw [show (-1 / 2 : ℝ) = -(1 / 2) by norm_num, h.neg_pow]
      have := mul_le_mul_of_nonneg_left b1 hq.le
      have h3 : (0 : ℝ) ≤ (1 / 2) ^ p * ((p + 1) ^ 2 * (1 / 10 ^ 7) ^ 3 / 4) := by positivity
      linarith
  unfold kjPartial
  simp only [hs]
  rw [← Finset.mul_sum]
  have hsum := Finset.sum_le_sum hb
  have hnum : ∑ p ∈ Finset.range 37, (-(-1 / 2 : ℝ) ^ p * (1 / 10 ^ 7) + (1 / 2) ^ p * (((p : ℝ) + 1) ^ 2 * (1 / 10 ^ 7) ^ 3 / 4))
      < -(2 / 3) * (1 / 10 ^ 7) := by
    norm_num [Finset.sum_range_succ]
  have hlt := hsum.trans_lt hnum
  have : (3 / 4 : ℝ) / π * ∑ p ∈ Finset.range 37, (-(-1 / 2 : ℝ) ^ p * (sin (((p : ℝ) + 1) * (1 / 10 ^ 7)) / (p + 1)))
      < 3 / 4 / π * (-(2 / 3) * (1 / 10 ^ 7)) := mul_lt_mul_of_pos_left hlt (by positivity)
  have e : (1 : ℝ) / 10 ^ 7 / (2 * π) + 3 / 4 / π * (-(2 / 3) * (1 / 10 ^ 7)) = 0 := by field_simp; norm_num
  linarith

/-- **C80.** The claim also fails for densities that touch 0. With `mu = π`, `gamma = 3/4`, `rho = 1/2`,
`lam = 0`, all accepted exactly, the truncated series is slightly negative near 0 and is then wrapped:
`cdf(1e-7) ≥ 1 - 1e-12`, although the probability of `[0, 1e-7]` is at most `1e-12`. -/
theorem C80_cdf_wraps :
    ∃ c, distCdf katojones (1 / 10 ^ 7) ⟨π, 3 / 4, 1 / 2, 0⟩ = some c ∧ 1 - 1 / 10 ^ 12 ≤ c ∧
      0 ≤ ∫ t in (0 : ℝ)..(1 / 10 ^ 7), kjDensity π (3 / 4) (1 / 2) 0 t ∧
      ∫ t in (0 : ℝ)..(1 / 10 ^ 7), kjDensity π (3 / 4) (1 / 2) 0 t ≤ 1 / 10 ^ 12 := by
  have hpi := pi_gt_three
  have hpi0 := pi_pos
  have h12 : (0 : ℝ) < 1 / 10 ^ 12 := by positivity
  set s : KJ := ⟨π, 3 / 4, 1 / 2, 0⟩ with hs
  have hf : ((1 : ℝ) / 2 * cos 0 - 3 / 4) ^ 2 + (1 / 2 * sin 0) ^ 2 ≤ (1 - 3 / 4) ^ 2 := by norm_num
  have harg : katojones.argcheck s :=
    ⟨⟨hpi0.le, by show π < 2 * π; linarith⟩, ⟨by norm_num [hs], by norm_num [hs]⟩, ⟨by norm_num [hs], by norm_num [hs]⟩,
      ⟨le_rfl, by show 0 < 2 * π; linarith⟩, hf.trans (by show _ ≤ (1 - 3 / 4 : ℝ) ^ 2 + _; linarith)⟩
  have hc : kjClean s = s := kjClean_self hpi0.le (by show π < 2 * π; linarith) (by norm_num [hs]) (by norm_num [hs])
    (by norm_num [hs]) (by norm_num [hs]) le_rfl (by show 0 < 2 * π; linarith)
  have herr := kjSeries_err (s := s) (by norm_num [hs]) (by norm_num [hs]) (by norm_num [hs]) (by norm_num [hs]) (1 / 10 ^ 7)
  have hser : kjSeries (1 / 10 ^ 7) s < 0 := by
    rw [kjSeries_eq (s := s) (by norm_num [hs]) (by norm_num [hs]) (by norm_num [hs]) (by norm_num [hs])]
    show kjPartial π (3 / 4) (1 / 2) 0 (kjTerms (3 / 4) (1 / 2)) (1 / 10 ^ 7) < 0
    rw [kjTerms_example]
    exact kjExample_neg
  have hint : 0 ≤ ∫ t in (0 : ℝ)..(1 / 10 ^ 7), kjDensity π (3 / 4) (1 / 2) 0 t :=
    intervalIntegral.integral_nonneg (by positivity) fun t _ =>
      kj_nonneg (by norm_num) (by norm_num) (by norm_num) (by norm_num) π 0 t hf
  have h' := abs_le.1 herr
  refine ⟨_, distCdf_inner katojones s harg (by positivity) (by norm_num; linarith), ?_, hint, ?_⟩
  · show _ ≤ kjCdf (1 / 10 ^ 7) s
    rw [kjCdf_inner hc (by norm_num [hs]) (by norm_num) (by norm_num; linarith)]
    have hge : -(1 / 10 ^ 12) ≤ kjSeries (1 / 10 ^ 7) s := by linarith [h'.1]
    have : pymod (kjSeries (1 / 10 ^ 7) s) 1 = kjSeries (1 / 10 ^ 7) s + 1 := by
      have : (1 : ℝ) / 10 ^ 12 < 1 := by norm_num
      refine (pymod_eq_iff one_pos).mpr ⟨by linarith, by linarith, ⟨1, ?_⟩⟩
      push_cast; ring
    rw [this]; linarith
  · linarith [h'.1]

end Verif
