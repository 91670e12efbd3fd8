import Verif.Model.ClusterScore
import Verif.Props.MixtureB

/-! # C60: the score of a mixture and its density -/

set_option autoImplicit false

namespace Verif.Props

open Verif Verif.Spec Real

/-- C60. `score` is the mean logarithm of what `predict_density` returns for the same observations, in the same unit, but
for an excess of at most `1e-32` divided by the smallest weight; of no observation it is `nan`. -/
theorem C60_score {Θ : Type} {K n : ℕ} (logpdf : Θ → ℝ → ℝ) (unit : String) (fullCycle : ℝ) (s : MixState Θ K)
    (hs : IsWeights s.p) {δ : ℝ} (hδ : 0 < δ) (hp : ∀ c, δ ≤ s.p c) (X : Fin n → ℝ) :
    (n = 0 → mocdScore logpdf unit fullCycle s X = none) ∧
    (0 < n → ∃ v, mocdScore logpdf unit fullCycle s X = some v ∧
      (∑ i, log (mixDensity (fun t x => exp (logpdf t x)) s (toRad unit fullCycle (X i)))) / n ≤ v ∧
      v ≤ (∑ i, log (mixDensity (fun t x => exp (logpdf t x)) s (toRad unit fullCycle (X i)))) / n + 1 / (10 ^ 32 * δ)) := by
  refine ⟨fun h => by rw [mocdScore, if_pos h], fun hn => ?_⟩
  have hn' : (0 : ℝ) < n := by exact_mod_cast hn
  refine ⟨_, by rw [mocdScore, if_neg hn.ne'], ?_⟩
  obtain ⟨f, hf⟩ : ∃ f, f = fun i => mixDensity (fun t x => exp (logpdf t x)) s (toRad unit fullCycle (X i)) := ⟨_, rfl⟩
  have hne : (Finset.univ : Finset (Fin K)).Nonempty := by
    by_contra h
    rw [Finset.not_nonempty_iff_eq_empty] at h
    have := hs.2
    rw [h, Finset.sum_empty] at this
    norm_num at this
  have hfpos : ∀ i, 0 < f i := fun i => by
    rw [hf]
    exact Finset.sum_pos (fun c _ => mul_pos (lt_of_lt_of_le hδ (hp c)) (exp_pos _)) hne
  have key : ∀ i, log (f i) ≤ mocdScoreSample logpdf unit fullCycle s (X i) ∧
      mocdScoreSample logpdf unit fullCycle s (X i) ≤ log (f i) + 1 / (10 ^ 32 * δ) := fun i => by
    have e : mocdScoreSample logpdf unit fullCycle s (X i)
        = log (∑ c, (s.p c + 1 / 10 ^ 32) * exp (logpdf (s.th c) (toRad unit fullCycle (X i)))) := by
      simp only [mocdScoreSample, logNorm, logGamma, exp_add]
      congr 1
      refine Finset.sum_congr rfl fun c _ => ?_
      rw [lwOffset, exp_log (add_pos_of_nonneg_of_pos (hs.1 c) (by positivity))]
    have lo : f i ≤ ∑ c, (s.p c + 1 / 10 ^ 32) * exp (logpdf (s.th c) (toRad unit fullCycle (X i))) := by
      rw [hf]
      exact Finset.sum_le_sum fun c _ => mul_le_mul_of_nonneg_right (by simp) (exp_pos _).le
    have hi : ∑ c, (s.p c + 1 / 10 ^ 32) * exp (logpdf (s.th c) (toRad unit fullCycle (X i)))
        ≤ f i * (1 + 1 / (10 ^ 32 * δ)) := by
      rw [hf]; simp only [mixDensity]; rw [Finset.sum_mul]
      refine Finset.sum_le_sum fun c _ => ?_
      have : s.p c + 1 / 10 ^ 32 ≤ s.p c * (1 + 1 / (10 ^ 32 * δ)) := by
        have h1 : δ * (1 / (10 ^ 32 * δ)) = 1 / 10 ^ 32 := by field_simp
        have h2 := mul_le_mul_of_nonneg_right (hp c) (by positivity : (0 : ℝ) ≤ 1 / (10 ^ 32 * δ))
        rw [h1] at h2
        linarith
      calc _ ≤ s.p c * (1 + 1 / (10 ^ 32 * δ)) * exp (logpdf (s.th c) (toRad unit fullCycle (X i))) :=
            mul_le_mul_of_nonneg_right this (exp_pos _).le
        _ = _ := by ring
    rw [e]
    refine ⟨log_le_log (hfpos i) lo, ?_⟩
    calc _ ≤ log (f i * (1 + 1 / (10 ^ 32 * δ))) := log_le_log (lt_of_lt_of_le (hfpos i) lo) hi
      _ = log (f i) + log (1 + 1 / (10 ^ 32 * δ)) := log_mul (hfpos i).ne' (by positivity)
      _ ≤ _ := by
        have := log_le_sub_one_of_pos (by positivity : (0 : ℝ) < 1 + 1 / (10 ^ 32 * δ))
        linarith
  have hfi : ∀ i, mixDensity (fun t x => exp (logpdf t x)) s (toRad unit fullCycle (X i)) = f i := fun i => by rw [hf]
  simp only [hfi]
  refine ⟨div_le_div_of_nonneg_right (Finset.sum_le_sum fun i _ => (key i).1) hn'.le, ?_⟩
  rw [div_add' _ _ _ hn'.ne']
  refine div_le_div_of_nonneg_right ?_ hn'.le
  calc _ ≤ ∑ i, (log (f i) + 1 / (10 ^ 32 * δ)) := Finset.sum_le_sum fun i _ => (key i).2
    _ = _ := by rw [Finset.sum_add_distrib, Finset.sum_const, Finset.card_univ, Fintype.card_fin, nsmul_eq_mul]; ring

/-- Two components with equal weights meet the conditions with `δ = 1/2`. -/
example : ∃ v, mocdScore (fun (k : ℝ) x => k * cos x) "radian" 360 (⟨fun _ => 1 / 2, ![0, 1]⟩ : MixState ℝ 2) ![0] = some v ∧
    (∑ i : Fin 1, log (mixDensity (fun t x => exp (t * cos x)) (⟨fun _ => 1 / 2, ![0, 1]⟩ : MixState ℝ 2)
      (toRad "radian" 360 (![0] i)))) / (1 : ℕ) ≤ v := by
  obtain ⟨v, h1, h2, -⟩ := (C60_score (fun (k : ℝ) x => k * cos x) "radian" 360
    (⟨fun _ => 1 / 2, ![0, 1]⟩ : MixState ℝ 2) ⟨fun _ => by norm_num, by norm_num⟩ (δ := 1 / 2) (by norm_num)
    (fun _ => le_rfl) ![0]).2 (by norm_num)
  exact ⟨v, h1, h2⟩

end Verif.Props
