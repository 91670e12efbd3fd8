import Verif.Lemmas.PermMean
import Verif.Lemmas.Gaps
import Mathlib.Probability.Independence.Integration
import Mathlib.MeasureTheory.Integral.Pi
import Mathlib.Analysis.SpecialFunctions.Integrals.Basic
import Verif.Spec.UniformLaw
import Verif.Props.ChiSquare
import Verif.Props.CorrNp
import Verif.Props.Rayleigh
import Verif.Props.WatsonOne
import Verif.Props.Wheeler

/-!
# C138: means of test statistics under the null hypothesis
-/

set_option autoImplicit false

namespace Verif.Props

open Verif Verif.Spec Real MeasureTheory Finset

/-! ## Specification -/

/-- The samples that arise when observation `i` goes to sample `lab i`. -/
def allocate {N k : ℕ} (lab : Fin N → Fin k) (x : Fin N → ℝ) : List (List ℝ) :=
  List.ofFn fun c : Fin k => ((List.finRange N).filter fun i => decide (lab i = c)).map x

/-- The frequencies of `k` classes when observation `i` falls into class `f i`. -/
noncomputable def classFreqs {N k : ℕ} (f : Fin N → Fin k) : List ℝ :=
  List.ofFn fun c : Fin k => ((univ.filter fun i => f i = c).card : ℝ)

/-! ## Helpers -/

private lemma filters_perm {α : Type} [DecidableEq α] {k : ℕ} (lab : α → Fin k) (l : List α) :
    ((List.finRange k).map fun c => l.filter fun i => decide (lab i = c)).flatten.Perm l := by
  rw [List.perm_iff_count]
  intro a
  rw [List.count_flatten, List.map_map]
  have h : ∀ c : Fin k, (List.count a ∘ fun c => l.filter fun i => decide (lab i = c)) c
      = if c = lab a then l.count a else 0 := fun c => by
    rw [Function.comp_apply]
    split_ifs with hc
    · exact List.count_filter (by simp [hc])
    · refine List.count_eq_zero_of_not_mem fun hm => hc ?_
      have := (List.mem_filter.1 hm).2
      exact (of_decide_eq_true this).symm
  rw [List.map_congr_left fun c _ => h c, ← List.sum_toFinset _ (List.nodup_finRange k)]
  simp

private lemma allocate_perm {N k : ℕ} (lab : Fin N → Fin k) (x : Fin N → ℝ) :
    (allocate lab x).flatten.Perm (List.ofFn x) := by
  have := (filters_perm lab (List.finRange N)).map x
  rw [List.map_flatten, List.map_map] at this
  unfold allocate
  rw [List.ofFn_eq_map, List.ofFn_eq_map]
  exact this

private lemma filter_sum {N : ℕ} (p : Fin N → Prop) [DecidablePred p] {M : Type} [AddCommMonoid M] (f : Fin N → M) :
    (((List.finRange N).filter fun i => decide (p i)).map f).sum = ∑ i ∈ univ.filter p, f i := by
  rw [← List.sum_toFinset _ ((List.nodup_finRange N).filter _)]
  congr 1
  ext i
  simp

private lemma filter_length {N : ℕ} (p : Fin N → Prop) [DecidablePred p] :
    ((List.finRange N).filter fun i => decide (p i)).length = (univ.filter p).card := by
  have := filter_sum p fun _ => (1 : ℕ)
  simpa using this

private lemma part_sum {N k : ℕ} (lab : Fin N → Fin k) : ∑ c, ((univ.filter fun i => lab i = c).card : ℝ) = N := by
  have := card_eq_sum_card_fiberwise (s := (univ : Finset (Fin N))) (t := (univ : Finset (Fin k))) (f := lab)
    (fun _ _ => mem_coe.2 (mem_univ _))
  rw [card_univ, Fintype.card_fin] at this
  rw [← Nat.cast_sum, ← this]

/-- The vectors of the uniform scores of the pooled data. -/
private noncomputable def scoreVec {N : ℕ} (z : Fin N → ℝ) (a : Fin N) : ℂ :=
  Complex.exp ((uniformScore (List.ofFn z) (z a) : ℝ) * Complex.I)

private lemma scoreVec_sum {N : ℕ} {z : Fin N → ℝ} (hz : Function.Injective z) (hN : 2 ≤ N) : ∑ a, scoreVec z a = 0 := by
  have h := resultant_all (L := List.ofFn z) (List.nodup_ofFn.2 hz) (by simpa using hN)
  rw [← h]
  unfold resultant scoreVec
  rw [List.map_map, List.map_ofFn, List.sum_ofFn]
  rfl

private lemma alloc_facts {N k : ℕ} (lab : Fin N → Fin k) (hlab : Function.Surjective lab) {z : Fin N → ℝ}
    (hz : Function.Injective z) (hsep : Separated (1 / 10 ^ 8) (List.ofFn z)) (σ : Equiv.Perm (Fin N)) :
    (∀ g ∈ allocate lab (z ∘ σ), g ≠ []) ∧ (allocate lab (z ∘ σ)).flatten.Nodup ∧
      Separated (1 / 10 ^ 8) (allocate lab (z ∘ σ)).flatten ∧
      ∀ c : Fin k, ‖resultant ((((List.finRange N).filter fun i => decide (lab i = c)).map (z ∘ σ)).map
        (uniformScore (allocate lab (z ∘ σ)).flatten))‖ = ‖∑ i ∈ univ.filter (fun i => lab i = c), scoreVec z (σ i)‖ := by
  have hp : (allocate lab (z ∘ σ)).flatten.Perm (List.ofFn z) :=
    (allocate_perm lab (z ∘ σ)).trans (by
      rw [List.ofFn_eq_map, List.ofFn_eq_map, ← List.map_map]
      refine List.Perm.map z ?_
      rw [← List.ofFn_eq_map]
      refine (List.perm_ext_iff_of_nodup (List.nodup_ofFn.2 σ.injective) (List.nodup_finRange N)).2 fun a => ?_
      simpa [List.mem_ofFn] using σ.surjective a)
  refine ⟨?_, hp.nodup_iff.2 (List.nodup_ofFn.2 hz), fun a ha b hb => hsep a (hp.mem_iff.1 ha) b (hp.mem_iff.1 hb), ?_⟩
  · intro g hg h0
    obtain ⟨c, rfl⟩ := (List.mem_ofFn' _ _).1 hg
    obtain ⟨i, hi⟩ := hlab c
    rw [List.map_eq_nil_iff, List.filter_eq_nil_iff] at h0
    exact h0 i (List.mem_finRange i) (by simp [hi])
  · intro c
    congr 1
    unfold resultant
    rw [List.map_map, List.map_map, filter_sum]
    refine sum_congr rfl fun i _ => ?_
    have : uniformScore (allocate lab (z ∘ σ)).flatten = uniformScore (List.ofFn z) := funext fun v => by
      unfold uniformScore countLe
      rw [hp.countP_eq, hp.length_eq]
    simp only [Function.comp_apply, this]
    rfl

/-! ## Properties -/

/-- C138. The two-sample uniform-scores statistic: whatever the pooled data (no ties), averaged over all
allocations of the observations to the two samples it is 2, the number of degrees of freedom of its reference law. -/
theorem C138_wheeler_two {N : ℕ} (lab : Fin N → Fin 2) (hlab : Function.Surjective lab) (z : Fin N → ℝ)
    (hz : Function.Injective z) (hsep : Separated (1 / 10 ^ 8) (List.ofFn z)) (sf : ℝ → ℕ → ℝ) :
    ∃ W : Equiv.Perm (Fin N) → ℝ,
      (∀ σ : Equiv.Perm (Fin N), wheelerWatson ((allocate lab (z ∘ σ)).map plain) sf = .ok (W σ, sf (W σ) 2, 2)) ∧
      (∑ σ, W σ) / N.factorial = 2 := by
  have hN : 2 ≤ N := by
    have := Fintype.card_le_of_surjective lab hlab
    simpa using this
  obtain ⟨S, hS⟩ : ∃ S, S = univ.filter (fun i => lab i = 0) := ⟨_, rfl⟩
  have hc1 : ((univ.filter (fun i => lab i = 1)).card : ℝ) = N - S.card := by
    have := part_sum lab
    rw [Fin.sum_univ_two, ← hS] at this
    linarith
  have h0 : (0 : ℝ) < S.card := by
    obtain ⟨i, hi⟩ := hlab 0
    have : 0 < S.card := card_pos.2 ⟨i, by rw [hS]; simp [hi]⟩
    exact_mod_cast this
  have h1 : (0 : ℝ) < N - S.card := by
    obtain ⟨i, hi⟩ := hlab 1
    rw [← hc1]
    have : 0 < (univ.filter (fun i => lab i = 1)).card := card_pos.2 ⟨i, by simp [hi]⟩
    exact_mod_cast this
  refine ⟨fun σ => 2 * ((N : ℝ) - 1) * ‖∑ i ∈ S, scoreVec z (σ i)‖ ^ 2 / (S.card * (N - S.card)), fun σ => ?_, ?_⟩
  · obtain ⟨f1, f2, f3, f4⟩ := alloc_facts lab hlab hz hsep σ
    obtain ⟨x, hx⟩ : ∃ x, x = ((List.finRange N).filter fun i => decide (lab i = 0)).map (z ∘ σ) := ⟨_, rfl⟩
    obtain ⟨y, hy⟩ : ∃ y, y = ((List.finRange N).filter fun i => decide (lab i = 1)).map (z ∘ σ) := ⟨_, rfl⟩
    have hal : allocate lab (z ∘ σ) = [x, y] := by
      rw [hx, hy]
      rfl
    have hfl : (allocate lab (z ∘ σ)).flatten = x ++ y := by rw [hal]; simp
    have f40 := f4 0
    rw [← hx, hfl, ← hS] at f40
    rw [hfl] at f2 f3
    have hlx : (x.length : ℝ) = S.card := by rw [hx, List.length_map, filter_length, hS]
    have hly : (y.length : ℝ) = N - S.card := by rw [hy, List.length_map, filter_length, hc1]
    rw [hal]
    have := C39_two_samples x y sf (f1 x (by rw [hal]; simp)) (f1 y (by rw [hal]; simp)) f2 f3
    simp only [List.map_cons, List.map_nil]
    rw [this]
    have hW : twoSampleW x y = 2 * ((N : ℝ) - 1) * ‖∑ i ∈ S, scoreVec z (σ i)‖ ^ 2 / (S.card * (N - S.card)) := by
      unfold twoSampleW
      rw [f40, hlx, hly, Nat.cast_add, hlx, hly]
      congr 3
      ring
    rw [hW]
  · have hm := perm_mean_sq (scoreVec z) (fun a => Complex.norm_exp_ofReal_mul_I _) (scoreVec_sum hz hN) hN S
    have hN1 : (0 : ℝ) < N - 1 := by
      have : (2 : ℝ) ≤ N := by exact_mod_cast hN
      linarith
    have hf : (0 : ℝ) < N.factorial := by exact_mod_cast Nat.factorial_pos N
    rw [← sum_div, ← mul_sum, hm]
    field_simp

/-- C138. Three or more samples: the average is `N/(N-1)` times the degrees of freedom, so slightly too large. -/
theorem C138_wheeler_many {N k : ℕ} (hk : 3 ≤ k) (lab : Fin N → Fin k) (hlab : Function.Surjective lab) (z : Fin N → ℝ)
    (hz : Function.Injective z) (hsep : Separated (1 / 10 ^ 8) (List.ofFn z)) (sf : ℝ → ℕ → ℝ) :
    ∃ W : Equiv.Perm (Fin N) → ℝ,
      (∀ σ : Equiv.Perm (Fin N), wheelerWatson ((allocate lab (z ∘ σ)).map plain) sf = .ok (W σ, sf (W σ) (2 * (k - 1)), 2 * (k - 1))) ∧
      (∑ σ, W σ) / N.factorial = 2 * ((k : ℝ) - 1) * (N / (N - 1)) := by
  have hN : 3 ≤ N := by
    have := Fintype.card_le_of_surjective lab hlab
    simp only [Fintype.card_fin] at this
    omega
  have hpos : ∀ c, (0 : ℝ) < (univ.filter fun i => lab i = c).card := fun c => by
    obtain ⟨i, hi⟩ := hlab c
    have : 0 < (univ.filter (fun i => lab i = c)).card := card_pos.2 ⟨i, by simp [hi]⟩
    exact_mod_cast this
  refine ⟨fun σ => 2 * ∑ c : Fin k, ‖∑ i ∈ univ.filter (fun i => lab i = c), scoreVec z (σ i)‖ ^ 2
    / (univ.filter fun i => lab i = c).card, fun σ => ?_, ?_⟩
  · obtain ⟨f1, f2, f3, f4⟩ := alloc_facts lab hlab hz hsep σ
    have hl : (allocate lab (z ∘ σ)).length = k := by simp [allocate]
    have := C39_many_samples (allocate lab (z ∘ σ)) sf (by omega) f1 f2 f3
    rw [this, hl]
    have hW : multiSampleW (allocate lab (z ∘ σ)) = 2 * ∑ c : Fin k,
        ‖∑ i ∈ univ.filter (fun i => lab i = c), scoreVec z (σ i)‖ ^ 2 / (univ.filter fun i => lab i = c).card := by
      unfold multiSampleW
      congr 1
      conv_lhs => enter [1, 2]; unfold allocate
      rw [List.map_ofFn, List.sum_ofFn]
      refine sum_congr rfl fun c _ => ?_
      rw [Function.comp_apply, f4 c, List.length_map, filter_length]
    rw [hW]
  · have hN1 : (0 : ℝ) < N - 1 := by
      have : (3 : ℝ) ≤ N := by exact_mod_cast hN
      linarith
    have hf : (0 : ℝ) < N.factorial := by exact_mod_cast Nat.factorial_pos N
    rw [← mul_sum, sum_comm]
    have : ∀ c : Fin k, ∑ σ : Equiv.Perm (Fin N), ‖∑ i ∈ univ.filter (fun i => lab i = c), scoreVec z (σ i)‖ ^ 2
        / ((univ.filter fun i => lab i = c).card : ℝ)
        = N.factorial / (N - 1) * (N - (univ.filter fun i => lab i = c).card) := fun c => by
      rw [← sum_div, perm_mean_sq (scoreVec z) (fun a => Complex.norm_exp_ofReal_mul_I _) (scoreVec_sum hz (by omega))
        (by omega)]
      have := hpos c
      field_simp
    rw [sum_congr rfl fun c _ => this c, ← mul_sum, sum_sub_distrib, part_sum, sum_const, card_univ, Fintype.card_fin,
      nsmul_eq_mul]
    field_simp

/-- A case meeting the hypotheses of `C138_wheeler_many` (and, with two labels, of `C138_wheeler_two`): four observations in
samples of sizes 2, 1 and 1; the average is 16/3 instead of 4. -/
example (sf : ℝ → ℕ → ℝ) : ∃ W : Equiv.Perm (Fin 4) → ℝ,
    (∀ σ : Equiv.Perm (Fin 4), wheelerWatson ((allocate (![0, 1, 2, 0] : Fin 4 → Fin 3) ((fun i : Fin 4 => (i : ℝ)) ∘ σ)).map plain) sf
      = .ok (W σ, sf (W σ) (2 * (3 - 1)), 2 * (3 - 1))) ∧
    (∑ σ, W σ) / (4).factorial = 16 / 3 := by
  have hz : Function.Injective (fun i : Fin 4 => (i : ℝ)) := fun _ _ h =>
    Fin.ext (Nat.cast_injective (R := ℝ) h)
  obtain ⟨W, h1, h2⟩ := C138_wheeler_many (by norm_num) (![0, 1, 2, 0] : Fin 4 → Fin 3) (by decide)
    (fun i : Fin 4 => (i : ℝ)) hz (by
      simp only [Separated, List.ofFn_succ, List.ofFn_zero, List.mem_cons, List.not_mem_nil, or_false]
      rintro a (rfl | rfl | rfl | rfl) b (rfl | rfl | rfl | rfl) h <;> first | exact absurd rfl h | norm_num) sf
  exact ⟨W, h1, by rw [h2]; norm_num⟩

/-- C138. The chi-square statistic of `N` observations that fall into `k` classes with equal probabilities: its mean is
`k - 1`, the number of degrees of freedom of its reference law, for every sample size. -/
theorem C138_chisquare {N k : ℕ} (hN : 0 < N) (hk : 0 < k) (sf : ℝ → ℕ → ℝ) :
    ∃ X : (Fin N → Fin k) → ℝ,
      (∀ f, chisquareTest (classFreqs f) sf = .ok (some (X f), some (sf (X f) (k - 1)))) ∧
      (∑ f, X f) / (k : ℝ) ^ N = k - 1 := by
  have hk' : (0 : ℝ) < k := by exact_mod_cast hk
  have hN' : (0 : ℝ) < N := by exact_mod_cast hN
  have hsum : ∀ f : Fin N → Fin k, (classFreqs f).sum = N := fun f => by
    unfold classFreqs
    rw [List.sum_ofFn]
    exact part_sum f
  refine ⟨fun f => k / N * ((classFreqs f).map fun x => x ^ 2).sum - N, fun f => ?_, ?_⟩
  · have hl : (classFreqs f).length = k := by simp [classFreqs]
    have := C114_statistic (classFreqs f) (fun x hx => by
      obtain ⟨c, rfl⟩ := (List.mem_ofFn' _ _).1 hx
      positivity) (by rw [hsum]; exact hN'.ne') sf _ rfl
    rw [this, hl, hsum]
  · have hsq : ∀ f : Fin N → Fin k, ((classFreqs f).map fun x => x ^ 2).sum
        = ∑ i : Fin N, ∑ j : Fin N, if f i = f j then (1 : ℝ) else 0 := fun f => by
      unfold classFreqs
      rw [List.map_ofFn, List.sum_ofFn]
      have : ∀ c : Fin k, ((fun x : ℝ => x ^ 2) ∘ fun c : Fin k => ((univ.filter fun i => f i = c).card : ℝ)) c
          = ∑ i : Fin N, ∑ j : Fin N, (if f i = c then (1 : ℝ) else 0) * if f j = c then (1 : ℝ) else 0 := fun c => by
        rw [Function.comp_apply, ← sum_mul_sum, ← sq]
        simp
      rw [sum_congr rfl fun c _ => this c, sum_comm]
      refine sum_congr rfl fun i _ => ?_
      rw [sum_comm]
      refine sum_congr rfl fun j _ => ?_
      simp [eq_comm]
    have htot : ∑ f : Fin N → Fin k, ((classFreqs f).map fun x => x ^ 2).sum
        = (k : ℝ) ^ N * (N + N * (N - 1) / k) := by
      rw [sum_congr rfl fun f _ => hsq f, sum_comm]
      have : ∀ i : Fin N, ∑ f : Fin N → Fin k, ∑ j : Fin N, (if f i = f j then (1 : ℝ) else 0)
          = (k : ℝ) ^ N * (1 + (N - 1) / k) := fun i => by
        rw [sum_comm]
        have hj : ∀ j : Fin N, ∑ f : Fin N → Fin k, (if f i = f j then (1 : ℝ) else 0)
            = if i = j then (k : ℝ) ^ N else (k : ℝ) ^ N / k := fun j => by
          have h := assign_pairs N k i j
          rw [sum_boole]
          split_ifs at h ⊢ with hij
          · exact mul_right_cancel₀ hk'.ne' h
          · rw [eq_div_iff hk'.ne']; exact h
        rw [sum_congr rfl fun j _ => hj j, ← sum_erase_add _ _ (mem_univ i), if_pos rfl,
          sum_congr rfl fun j hj => if_neg (ne_of_mem_erase hj).symm, sum_const, card_erase_of_mem (mem_univ i),
          card_univ, Fintype.card_fin, nsmul_eq_mul, Nat.cast_sub (by omega)]
        push_cast
        ring
      rw [sum_congr rfl fun i _ => this i, sum_const, card_univ, Fintype.card_fin, nsmul_eq_mul]
      ring
    rw [sum_sub_distrib, ← mul_sum, htot, sum_const, card_univ, Fintype.card_fun, Fintype.card_fin, Fintype.card_fin,
      nsmul_eq_mul]
    push_cast
    have : (0 : ℝ) < (k : ℝ) ^ N := by positivity
    field_simp
    ring

private lemma uniform_int (f : ℝ → ℝ) : ∫ x, f x ∂uniformLaw = (2 * π)⁻¹ * ∫ x in (0 : ℝ)..(2 * π), f x := by
  unfold uniformLaw
  rw [integral_smul_measure, intervalIntegral.integral_of_le (by positivity), ← integral_Ico_eq_integral_Ioc,
    ENNReal.toReal_inv, ENNReal.toReal_ofReal (by positivity), smul_eq_mul]

private lemma uniform_cos : ∫ x, cos x ∂uniformLaw = 0 := by
  rw [uniform_int, integral_cos]
  simp

private lemma uniform_sin : ∫ x, sin x ∂uniformLaw = 0 := by
  rw [uniform_int, integral_sin]
  simp

private lemma bdd_int {n : ℕ} {f : (Fin n → ℝ) → ℝ} (hf : Continuous f) (C : ℝ) (h : ∀ u, |f u| ≤ C) :
    Integrable f (uniformSample n) := by
  have : IsProbabilityMeasure (uniformSample n) := by unfold uniformSample; infer_instance
  exact Integrable.of_bound hf.aestronglyMeasurable C (Filter.Eventually.of_forall h)

private lemma pair_mean {n : ℕ} (f : ℝ → ℝ) (hf : Continuous f) (h0 : ∫ x, f x ∂uniformLaw = 0) {j k : Fin n}
    (h : j ≠ k) : ∫ u, f (u j) * f (u k) ∂uniformSample n = 0 := by
  have hi := ProbabilityTheory.iIndepFun_pi (ι := Fin n) (μ := fun _ => uniformLaw) (X := fun _ => f)
    (fun _ => hf.aemeasurable)
  have := (hi.indepFun h).integral_fun_mul_eq_mul_integral
    (hf.comp (continuous_apply j)).aestronglyMeasurable (hf.comp (continuous_apply k)).aestronglyMeasurable
  unfold uniformSample
  rw [this, integral_comp_eval (μ := fun _ : Fin n => uniformLaw) (i := j) hf.aestronglyMeasurable, h0, zero_mul]

private lemma norm_moment_sq {n : ℕ} (u : Fin n → ℝ) :
    ‖moment (List.ofFn u) (ones (List.ofFn u)) 1‖ ^ 2
      = (∑ j, ∑ k, (cos (u j) * cos (u k) + sin (u j) * sin (u k))) / (n : ℝ) ^ 2 := by
  have he : expSum (List.ofFn u) (ones (List.ofFn u)) 1 = ∑ j, Complex.exp ((u j : ℝ) * Complex.I) := by
    have : ∀ l : List ℝ, expSum l (ones l) 1 = (l.map fun a => Complex.exp ((a : ℝ) * Complex.I)).sum := fun l => by
      unfold expSum ones
      induction l with
      | nil => simp
      | cons a l ih => simp_all
    rw [this, List.map_ofFn, List.sum_ofFn]
    rfl
  have hs : (ones (List.ofFn u)).sum = n := by
    rw [sum_ones, List.length_ofFn]
  unfold moment
  rw [he, hs, norm_div, Complex.norm_real, norm_natCast, div_pow]
  congr 1
  rw [Complex.sq_norm, Complex.normSq_apply, Complex.re_sum, Complex.im_sum]
  simp only [Complex.exp_ofReal_mul_I_re, Complex.exp_ofReal_mul_I_im, sum_add_distrib, sum_mul_sum]

/-- C138. Rayleigh's statistic `z` of `n` independent uniform angles has mean 1, the mean of its limiting law, for every
sample size. -/
theorem C138_rayleigh {n : ℕ} (hn : 0 < n) (B : ℤ) (draws : List (List ℝ)) (hB : 1 ≤ B) :
    ∃ Z : (Fin n → ℝ) → ℝ,
      (∀ u, ∃ res, rayleighTest (some (List.ofFn u)) none none none B draws = .ok res ∧ res.z = Z u) ∧
      ∫ u, Z u ∂uniformSample n = 1 := by
  have hn' : (0 : ℝ) < n := by exact_mod_cast hn
  refine ⟨fun u => n * ((∑ j, ∑ k, (cos (u j) * cos (u k) + sin (u j) * sin (u k))) / (n : ℝ) ^ 2), fun u => ?_, ?_⟩
  · obtain ⟨res, h1, -, h2, -⟩ := C30_rayleigh_sample (List.ofFn u) B draws hB (by
      intro h
      have := congrArg List.length h
      simp at this
      omega)
    exact ⟨res, h1, by rw [h2, norm_moment_sq, List.length_ofFn]⟩
  · have : IsProbabilityMeasure (uniformSample n) := by unfold uniformSample; infer_instance
    have hc : ∀ j k : Fin n, Integrable (fun u : Fin n → ℝ => cos (u j) * cos (u k)) (uniformSample n) := fun j k =>
      bdd_int (by fun_prop) 1 fun u => by
        rw [abs_mul]; exact mul_le_one₀ (abs_cos_le_one _) (abs_nonneg _) (abs_cos_le_one _)
    have hs : ∀ j k : Fin n, Integrable (fun u : Fin n → ℝ => sin (u j) * sin (u k)) (uniformSample n) := fun j k =>
      bdd_int (by fun_prop) 1 fun u => by
        rw [abs_mul]; exact mul_le_one₀ (abs_sin_le_one _) (abs_nonneg _) (abs_sin_le_one _)
    have hcs : ∀ j k : Fin n, Integrable (fun u : Fin n → ℝ => cos (u j) * cos (u k) + sin (u j) * sin (u k))
      (uniformSample n) := fun j k => (hc j k).add (hs j k)
    have hpair : ∀ j k : Fin n, ∫ u, (cos (u j) * cos (u k) + sin (u j) * sin (u k)) ∂uniformSample n
        = if j = k then 1 else 0 := fun j k => by
      split_ifs with h
      · subst h
        have : ∀ u : Fin n → ℝ, cos (u j) * cos (u j) + sin (u j) * sin (u j) = 1 := fun u => by
          rw [← sq, ← sq, cos_sq_add_sin_sq]
        simp [this]
      · rw [integral_add (hc j k) (hs j k), pair_mean cos continuous_cos uniform_cos h,
          pair_mean sin continuous_sin uniform_sin h, add_zero]
    rw [integral_const_mul, integral_div, integral_finsetSum _ fun j _ => integrable_finsetSum _ fun k _ => hcs j k,
      sum_congr rfl fun j _ => integral_finsetSum _ fun k _ => hcs j k]
    simp only [hpair, sum_ite_eq, mem_univ, if_true, sum_const, card_univ, Fintype.card_fin, nsmul_eq_mul, mul_one]
    field_simp

private lemma abs_int {a c : ℝ} (h0 : 0 ≤ a) (h1 : a ≤ c) : ∫ b in (0 : ℝ)..c, |a - b| = (a ^ 2 + (c - a) ^ 2) / 2 := by
  have hc : ∀ p q : ℝ, IntervalIntegrable (fun b => |a - b|) volume p q := fun p q =>
    (by fun_prop : Continuous fun b => |a - b|).intervalIntegrable p q
  rw [← intervalIntegral.integral_add_adjacent_intervals (hc 0 a) (hc a c)]
  have e1 : ∫ b in (0 : ℝ)..a, |a - b| = ∫ b in (0 : ℝ)..a, (a - b) := by
    refine intervalIntegral.integral_congr fun b hb => ?_
    rw [Set.uIcc_of_le h0] at hb
    exact abs_of_nonneg (by linarith [hb.2])
  have e2 : ∫ b in a..c, |a - b| = ∫ b in a..c, (b - a) := by
    refine intervalIntegral.integral_congr fun b hb => ?_
    rw [Set.uIcc_of_le h1] at hb
    show |a - b| = b - a
    rw [abs_sub_comm]
    exact abs_of_nonneg (by linarith [hb.1])
  rw [e1, e2, intervalIntegral.integral_sub (by simp) (by simp), intervalIntegral.integral_sub (by simp) (by simp)]
  simp only [intervalIntegral.integral_const, integral_id, smul_eq_mul]
  ring

private lemma kernel_mean {a : ℝ} (h0 : 0 ≤ a) (h1 : a ≤ 2 * π) :
    ∫ b, watsonKernel ((a - b) / (2 * π)) ∂uniformLaw = 0 := by
  have hπ := two_pi_pos
  have he : ∀ b : ℝ, watsonKernel ((a - b) / (2 * π))
      = (a ^ 2 - 2 * a * b + b ^ 2) * (1 / (8 * π ^ 2)) - |a - b| * (1 / (4 * π)) + 1 / 12 := fun b => by
    unfold watsonKernel
    rw [abs_div, abs_of_pos hπ]
    field_simp
    ring
  rw [uniform_int]
  simp only [he]
  rw [intervalIntegral.integral_add (Continuous.intervalIntegrable (by fun_prop) _ _) (by simp),
    intervalIntegral.integral_sub (Continuous.intervalIntegrable (by fun_prop) _ _)
      (Continuous.intervalIntegrable (by fun_prop) _ _), intervalIntegral.integral_mul_const,
    intervalIntegral.integral_mul_const, abs_int h0 h1,
    intervalIntegral.integral_add (Continuous.intervalIntegrable (by fun_prop) _ _)
      (Continuous.intervalIntegrable (by fun_prop) _ _),
    intervalIntegral.integral_sub (Continuous.intervalIntegrable (by fun_prop) _ _)
      (Continuous.intervalIntegrable (by fun_prop) _ _), intervalIntegral.integral_const_mul]
  simp only [intervalIntegral.integral_const, integral_id, integral_pow, smul_eq_mul]
  have := pi_pos
  field_simp
  ring

private lemma kernel_pair {n : ℕ} {j k : Fin n} (h : j ≠ k) :
    Integrable (fun u : Fin n → ℝ => watsonKernel ((u j - u k) / (2 * π))) (uniformSample n) ∧
      ∫ u, watsonKernel ((u j - u k) / (2 * π)) ∂uniformSample n = 0 := by
  have hm : Measurable fun p : ℝ × ℝ => watsonKernel ((p.1 - p.2) / (2 * π)) := by
    unfold watsonKernel
    fun_prop
  have hi := ProbabilityTheory.iIndepFun_pi (ι := Fin n) (μ := fun _ => uniformLaw) (X := fun _ x => x)
    (fun _ => aemeasurable_id)
  have hmap := (ProbabilityTheory.indepFun_iff_map_prod_eq_prod_map_map (measurable_pi_apply j).aemeasurable
    (measurable_pi_apply k).aemeasurable).1 (hi.indepFun h)
  have hev : ∀ i : Fin n, (Measure.pi fun _ : Fin n => uniformLaw).map (fun u => u i) = uniformLaw := fun i =>
    (measurePreserving_eval (fun _ : Fin n => uniformLaw) i).map_eq
  rw [hev, hev] at hmap
  have h1 : ∫ u, watsonKernel ((u j - u k) / (2 * π)) ∂uniformSample n
      = ∫ p, watsonKernel ((p.1 - p.2) / (2 * π)) ∂(uniformLaw.prod uniformLaw) := by
    rw [← hmap, integral_map (by fun_prop) hm.aestronglyMeasurable]
    rfl
  have hae : ∀ᵐ a ∂uniformLaw, 0 ≤ a ∧ a ≤ 2 * π := by
    unfold uniformLaw
    refine Measure.ae_smul_measure ?_ _
    filter_upwards [ae_restrict_mem measurableSet_Ico] with a ha
    exact ⟨ha.1, ha.2.le⟩
  have hint : Integrable (fun p : ℝ × ℝ => watsonKernel ((p.1 - p.2) / (2 * π))) (uniformLaw.prod uniformLaw) := by
    have hae2 : ∀ᵐ p ∂(uniformLaw.prod uniformLaw), (0 ≤ p.1 ∧ p.1 ≤ 2 * π) ∧ (0 ≤ p.2 ∧ p.2 ≤ 2 * π) :=
      (Measure.quasiMeasurePreserving_fst.ae hae).and (Measure.quasiMeasurePreserving_snd.ae hae)
    refine Integrable.of_bound hm.aestronglyMeasurable 2 ?_
    filter_upwards [hae2] with p hp
    have hd : |(p.1 - p.2) / (2 * π)| ≤ 1 := by
      rw [abs_div, abs_of_pos two_pi_pos, div_le_one two_pi_pos, abs_le]
      constructor <;> linarith [hp.1.1, hp.1.2, hp.2.1, hp.2.2]
    unfold watsonKernel
    obtain ⟨d, hd'⟩ : ∃ d, d = (p.1 - p.2) / (2 * π) := ⟨_, rfl⟩
    rw [← hd'] at hd ⊢
    have h0 := abs_nonneg d
    have h2 : d ^ 2 ≤ 1 := by rw [← sq_abs]; nlinarith
    rw [Real.norm_eq_abs, abs_le]
    constructor <;> nlinarith [sq_nonneg d]
  refine ⟨?_, ?_⟩
  · rw [← hmap] at hint
    exact hint.comp_measurable (f := fun u : Fin n → ℝ => (u j, u k)) (by fun_prop)
  rw [h1, integral_prod _ hint, integral_congr_ae (g := fun _ => 0) ?_, integral_zero]
  filter_upwards [hae] with a ha
  exact kernel_mean ha.1 ha.2

/-- C138. Watson's one-sample statistic of `n` independent uniform angles has mean 1/12, the mean of its limiting law, for
every sample size. -/
theorem C138_watson {n : ℕ} (hn : 0 < n) (B : ℤ) (draws : List (List ℝ)) (hB : 1 ≤ B) :
    ∃ W : (Fin n → ℝ) → ℝ,
      (∀ u, ∃ pval, watsonTest (List.ofFn u) B draws = .ok (W u, pval)) ∧ ∫ u, W u ∂uniformSample n = 1 / 12 := by
  have hn' : (0 : ℝ) < n := by exact_mod_cast hn
  refine ⟨fun u => (∑ j, ∑ k, watsonKernel ((u j - u k) / (2 * π))) / n, fun u => ?_, ?_⟩
  · obtain ⟨U2, pval, h1, h2, -⟩ := C42_watson (List.ofFn u) B draws hB (by
      intro h
      have := congrArg List.length h
      simp at this
      omega)
    refine ⟨pval, ?_⟩
    rw [h1, h2]
    unfold pairSum
    simp only [List.map_ofFn, List.sum_ofFn, List.length_ofFn, Function.comp_apply]
  · have : IsProbabilityMeasure (uniformSample n) := by unfold uniformSample; infer_instance
    have hpair : ∀ j k : Fin n, Integrable (fun u : Fin n → ℝ => watsonKernel ((u j - u k) / (2 * π))) (uniformSample n) ∧
        ∫ u, watsonKernel ((u j - u k) / (2 * π)) ∂uniformSample n = if j = k then 1 / 12 else 0 := fun j k => by
      split_ifs with h
      · subst h
        have e : ∀ u : Fin n → ℝ, watsonKernel ((u j - u j) / (2 * π)) = 1 / 12 := fun u => by
          unfold watsonKernel
          simp
        simp only [e]
        exact ⟨integrable_const _, by simp⟩
      · exact kernel_pair h
    rw [integral_div, integral_finsetSum _ fun j _ => integrable_finsetSum _ fun k _ => (hpair j k).1,
      sum_congr rfl fun j _ => integral_finsetSum _ fun k _ => (hpair j k).1]
    simp only [(hpair _ _).2, sum_ite_eq, mem_univ, if_true, sum_const, card_univ, Fintype.card_fin, nsmul_eq_mul]
    field_simp

private lemma reversed {n : ℕ} (b : Fin n → ℝ) (hb : Function.Injective b) :
    ∃ τ : Equiv.Perm (Fin n), ∀ i j, b (τ i) < b (τ j) ↔ b j < b i := by
  have h1 : StrictMono (b ∘ Tuple.sort b) := (Tuple.monotone_sort b).strictMono_of_injective
    (hb.comp (Tuple.sort b).injective)
  have h2 : StrictMono ((fun i => -b i) ∘ Tuple.sort fun i => -b i) :=
    (Tuple.monotone_sort fun i => -b i).strictMono_of_injective
      ((neg_injective.comp hb).comp (Tuple.sort fun i => -b i).injective)
  refine ⟨(Tuple.sort fun i => -b i).symm.trans (Tuple.sort b), fun i j => ?_⟩
  have e1 := h1.lt_iff_lt (a := (Tuple.sort fun i => -b i).symm i) (b := (Tuple.sort fun i => -b i).symm j)
  have e2 := h2.lt_iff_lt (a := (Tuple.sort fun i => -b i).symm i) (b := (Tuple.sort fun i => -b i).symm j)
  simp only [Function.comp_apply, Equiv.apply_symm_apply, neg_lt_neg_iff] at e1 e2
  simp only [Equiv.trans_apply]
  rw [e1, e2]

/-- C138. The rank correlation of two circular variables, averaged over all ways to pair the observations (no ties in the
second variable), is 0. -/
theorem C138_correlation {n : ℕ} (hn : 3 ≤ n) (a b : Fin n → ℝ) (hb : Function.Injective b) (pa pb : Option ℝ)
    (test strict : Bool) (z : ℝ) (cdf : ℝ → ℝ) :
    ∃ R : Equiv.Perm (Fin n) → ℝ,
      (∀ σ : Equiv.Perm (Fin n), ∃ res, circCorrcc (List.ofFn a) (List.ofFn (b ∘ σ)) pa pb "nonparametric" test strict z cdf
        = .ok res ∧ res.r = some (R σ)) ∧
      (∑ σ, R σ) / n.factorial = 0 := by
  refine ⟨fun σ => rankCorr a (b ∘ σ), fun σ => ?_, ?_⟩
  · obtain ⟨res, -, h1, h2, -⟩ := C53_value a (b ∘ σ) pa pb test strict z cdf hn
    exact ⟨res, h1, h2⟩
  · obtain ⟨τ, hτ⟩ := reversed b hb
    have h : ∀ σ : Equiv.Perm (Fin n), rankCorr a (b ∘ ⇑(τ * σ)) = -rankCorr a (b ∘ σ) := fun σ => by
      rw [C53_symm (b ∘ ⇑(τ * σ)) a, C53_symm (b ∘ ⇑σ) a]
      exact C53_reverse (b ∘ σ) a (b ∘ ⇑(τ * σ)) fun i j => hτ (σ i) (σ j)
    have := Equiv.sum_comp (Equiv.mulLeft τ) fun σ => rankCorr a (b ∘ σ)
    simp only [Equiv.coe_mulLeft] at this
    rw [sum_congr rfl fun σ _ => h σ, sum_neg_distrib] at this
    rw [show ∑ σ : Equiv.Perm (Fin n), rankCorr a (b ∘ σ) = 0 by linarith, zero_div]

end Verif.Props
