import Verif.Spec.MeanDir
import Verif.Lemmas.FinSums
import Verif.Lemmas.Samples

/-! Helper lemmas: `circ_mean` of an unweighted sample and the specification `IsMeanDir`. -/

set_option autoImplicit false

namespace Verif

open Real Verif.Spec

lemma moment_ofFn {n : ℕ} (a : Fin n → ℝ) :
    moment (List.ofFn a) (ones (List.ofFn a)) 1 = (∑ i, Complex.exp ((a i : ℂ) * Complex.I)) / n := by
  rw [moment, expSum_ones, sum_ones, List.length_ofFn]
  congr 1
  rw [resultant, List.map_ofFn, List.sum_ofFn]
  rfl

lemma circMean_some_iff {n : ℕ} (a : Fin n → ℝ) (m : ℝ) (h : circMean (List.ofFn a) (ones (List.ofFn a)) = some m) :
    IsMeanDir a m := by
  rw [circMean_eq] at h
  split_ifs at h with hc
  push Not at hc
  cases h
  exact ⟨‖moment (List.ofFn a) (ones (List.ofFn a)) 1‖, hc.2, by rw [← moment_ofFn]; exact polar_angmod _⟩

lemma circMean_of_isMeanDir {n : ℕ} {a : Fin n → ℝ} {m : ℝ} (h : IsMeanDir a m) :
    ∃ m', circMean (List.ofFn a) (ones (List.ofFn a)) = some m' ∧ SameDir m' m := by
  obtain ⟨ρ, hρ, h⟩ := h
  have hρ0 : 0 < ρ := lt_trans (by norm_num) hρ
  have hn : (n : ℝ) ≠ 0 := by
    intro h0
    have : (n : ℂ) = 0 := by exact_mod_cast h0
    rw [this, div_zero, eq_comm, mul_eq_zero] at h
    rcases h with h | h
    · exact hρ0.ne' (by exact_mod_cast h)
    · exact Complex.exp_ne_zero _ h
  rw [← moment_ofFn] at h
  have hnorm : ‖moment (List.ofFn a) (ones (List.ofFn a)) 1‖ = ρ := by
    rw [h, norm_mul, Complex.norm_exp_ofReal_mul_I, mul_one, Complex.norm_real, Real.norm_eq_abs, abs_of_pos hρ0]
  rw [circMean_eq, if_neg (by rw [sum_ones, List.length_ofFn, hnorm]; push Not; exact ⟨hn, hρ⟩)]
  exact ⟨_, rfl, (angmod2pi_cong _).trans (arg_sameDir_of_polar hρ0 h)⟩

lemma circMean_none_iff {n : ℕ} (a : Fin n → ℝ) :
    circMean (List.ofFn a) (ones (List.ofFn a)) = none ↔ ¬ ∃ m, IsMeanDir a m := by
  constructor
  · rintro h ⟨m, hm⟩
    obtain ⟨m', h', -⟩ := circMean_of_isMeanDir hm
    rw [h] at h'; cases h'
  · intro h
    cases hc : circMean (List.ofFn a) (ones (List.ofFn a)) with
    | none => rfl
    | some m => exact absurd ⟨m, circMean_some_iff a m hc⟩ h

lemma isMeanDir_unique {n : ℕ} {a : Fin n → ℝ} {m m' : ℝ} (h : IsMeanDir a m) (h' : IsMeanDir a m') :
    SameDir m m' := by
  obtain ⟨k, hk, s⟩ := circMean_of_isMeanDir h
  obtain ⟨k', hk', s'⟩ := circMean_of_isMeanDir h'
  rw [hk] at hk'; cases hk'
  exact s.symm.trans s'

lemma isMeanDir_rotate {n : ℕ} {a a' : Fin n → ℝ} {m t : ℝ} (h : IsMeanDir a m)
    (ha : ∀ i, SameDir (a' i) (a i + t)) : IsMeanDir a' (m + t) := by
  obtain ⟨ρ, hρ, h⟩ := h
  refine ⟨ρ, hρ, ?_⟩
  have : ∀ i, Complex.exp ((a' i : ℂ) * Complex.I)
      = Complex.exp ((a i : ℂ) * Complex.I) * Complex.exp ((t : ℂ) * Complex.I) := by
    intro i
    rw [(exp_eq_iff_sameDir (a' i) (a i + t)).2 (ha i), ← Complex.exp_add]
    push_cast
    rw [add_mul]
  simp only [this, ← Finset.sum_mul]
  rw [mul_div_right_comm, h]
  push_cast
  rw [add_mul, Complex.exp_add]
  ring

lemma isMeanDir_reflect {n : ℕ} {a : Fin n → ℝ} {m : ℝ} (h : IsMeanDir a m) :
    IsMeanDir (fun i => -a i) (-m) := by
  obtain ⟨ρ, hρ, h⟩ := h
  refine ⟨ρ, hρ, ?_⟩
  have hconj : ∀ x : ℝ, Complex.exp (((-x : ℝ) : ℂ) * Complex.I)
      = starRingEnd ℂ (Complex.exp ((x : ℂ) * Complex.I)) := by
    intro x
    rw [← Complex.exp_conj]
    simp
  simp only [hconj]
  rw [← map_sum]
  have := congrArg (starRingEnd ℂ) h
  rw [map_div₀, map_mul, Complex.conj_ofReal, Complex.conj_natCast] at this
  exact this

/-- The sines of the deviations from the mean direction add up to 0. -/
lemma sum_sin_isMeanDir {n : ℕ} {a : Fin n → ℝ} {m : ℝ} (h : IsMeanDir a m) : ∑ i, sin (a i - m) = 0 := by
  obtain ⟨ρ, hρ, h⟩ := h
  have hn : (n : ℂ) ≠ 0 := by
    intro h0
    rw [h0, div_zero, eq_comm, mul_eq_zero] at h
    rcases h with h | h
    · exact (lt_trans (by norm_num : (0 : ℝ) < 1 / 10 ^ 8) hρ).ne' (by exact_mod_cast h)
    · exact Complex.exp_ne_zero _ h
  rw [div_eq_iff hn] at h
  have : (∑ i, Complex.exp (((a i - m : ℝ) : ℂ) * Complex.I)) = ((ρ * n : ℝ) : ℂ) := by
    have e : ∀ i, Complex.exp (((a i - m : ℝ) : ℂ) * Complex.I)
        = Complex.exp ((a i : ℂ) * Complex.I) * Complex.exp (-((m : ℂ) * Complex.I)) := by
      intro i
      rw [← Complex.exp_add]; push_cast; ring_nf
    simp only [e, ← Finset.sum_mul]
    rw [h]
    push_cast
    have e1 : Complex.exp ((m : ℂ) * Complex.I) * Complex.exp (-((m : ℂ) * Complex.I)) = 1 := by
      rw [← Complex.exp_add, add_neg_cancel, Complex.exp_zero]
    linear_combination (ρ : ℂ) * n * e1
  have him := congrArg Complex.im this
  rw [Complex.im_sum, Complex.ofReal_im] at him
  simpa only [Complex.exp_ofReal_mul_I_im] using him

end Verif
