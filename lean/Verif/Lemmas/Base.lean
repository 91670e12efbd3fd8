import Verif.Model.Base
import Verif.Lemmas.Descriptive
import Verif.Lemmas.Samples
import Mathlib.RingTheory.RootsOfUnity.Complex

/-! Helper lemmas: what a successful construction consists of; evenly spaced directions. -/

set_option autoImplicit false

namespace Verif

open Real Spec

lemma except_bind_ok {ε α β : Type} {x : Except ε α} {f : α → Except ε β} {b : β} (h : x.bind f = .ok b) :
    ∃ a, x = .ok a ∧ f a = .ok b := by
  cases x with
  | error e => simp [Except.bind] at h
  | ok a => exact ⟨a, rfl, h⟩

lemma except_map_ok {ε α β : Type} {x : Except ε α} {f : α → β} {b : β} (h : x.map f = .ok b) :
    ∃ a, x = .ok a ∧ f a = b := by
  cases x with
  | error e => simp [Except.map] at h
  | ok a => exact ⟨a, rfl, by simpa [Except.map] using h⟩

/-- The parts of a successful construction after preprocessing. -/
structure CircularParts (k : ℝ) (p : Prepared) (kw : Option (Option String)) (opts : MedianOpts) (e : Env)
    (c : CircularObj) : Prop where
  sum_ne : p.w.sum ≠ 0
  fullCycle : c.fullCycle = k
  alpha : c.alpha = p.alpha
  w : c.w = p.w
  grouped : c.grouped = p.grouped
  binSize : c.binSize = p.binSize
  n : c.n = pyInt p.w.sum
  r : c.r = ‖moment p.alpha p.w 1‖
  mean : c.mean = if ‖moment p.alpha p.w 1‖ ≤ 1 / 10 ^ 12 then none
    else some (angmod2pi (Complex.arg (moment p.alpha p.w 1)))
  n_pos : 0 < c.n
  r_le : c.r ≤ 1
  pval : c.pval = exp (sqrt (1 + 4 * c.n + 4 * ((c.n : ℝ) ^ 2 - (c.n * c.r) ^ 2)) - (1 + 2 * c.n))
  R : c.R = c.n * c.r
  kappa : c.kappa = circKappa c.r (some c.n.toNat)
  method : c.meanCiMethod = meanCiMethod kw c.pval c.n
  meanCi : circularMeanCi p c.meanCiMethod c.pval c.mean c.r c.n e = .ok c.meanCi
  s : angularStd none none (some c.r) (some p.binSize) = .ok c.s
  s0 : circStd none none (some c.r) (some p.binSize) = .ok c.s0
  median : circMedian p.alpha p.w opts.method opts.returnAverage opts.averageMethod e.init = .ok c.median
  medianCi : circularMedianCi p c.median e = .ok c.medianCi
  skewness : c.skewness = circSkewness p.alpha p.w
  kurtosis : c.kurtosis = circKurtosis p.alpha p.w

lemma rayleigh_ok {r : ℝ} {n : ℤ} {ray : RayleighResult} (h : rayleighTest none none (some r) (some n) 1 [] = .ok ray) :
    0 < n ∧ r ≤ 1 ∧ ray.pval = exp (sqrt (1 + 4 * n + 4 * ((n : ℝ) ^ 2 - (n * r) ^ 2)) - (1 + 2 * n)) := by
  simp only [rayleighTest, rayleighOf] at h
  rw [if_neg (by norm_num)] at h
  by_cases h1 : n ≤ 0
  · simp [h1] at h
  by_cases h2 : 0 ≤ r ∧ r ≤ 1
  · rw [if_neg h1, if_neg (not_not.2 h2)] at h
    cases h
    exact ⟨by omega, h2.2, rfl⟩
  · simp [h1, h2] at h

lemma circularOf_ok {k : ℝ} {p : Prepared} {kw : Option (Option String)} {opts : MedianOpts} {e : Env}
    {c : CircularObj} (h : circularOf k p kw opts e = .ok c) : CircularParts k p kw opts e c := by
  unfold circularOf at h
  simp only at h
  rw [circMeanAndR_eq] at h
  by_cases hs : p.w.sum = 0
  · simp [hs] at h
  · rw [if_neg hs] at h
    simp only at h
    obtain ⟨ray, hray, h⟩ := except_bind_ok h
    obtain ⟨ci, hci, h⟩ := except_bind_ok h
    obtain ⟨s, hs1, h⟩ := except_bind_ok h
    obtain ⟨s0, hs0, h⟩ := except_bind_ok h
    obtain ⟨med, hmed, h⟩ := except_bind_ok h
    obtain ⟨mci, hmci, h⟩ := except_map_ok h
    obtain ⟨h1, h2, h3⟩ := rayleigh_ok hray
    subst h
    exact ⟨hs, rfl, rfl, rfl, rfl, rfl, rfl, rfl, rfl, h1, h2, h3, rfl, rfl, rfl, hci, hs1, hs0, hmed, hmci, rfl, rfl⟩

lemma circular_ok {data : List ℝ} {w edges : Option (List ℝ)} {unit : String} {fc rot : Option ℝ}
    {kw : Option (Option String)} {opts : MedianOpts} {e : Env} {c : CircularObj}
    (h : circular data w edges unit fc rot kw opts e = .ok c) :
    ∃ k alpha p, fullCycleOf unit fc = .ok k ∧ circularAlpha data k rot = .ok alpha ∧
      prepare alpha w edges = .ok p ∧ CircularParts k p kw opts e c := by
  obtain ⟨k, hk, h⟩ := except_bind_ok h
  obtain ⟨alpha, ha, h⟩ := except_bind_ok h
  obtain ⟨p, hp, h⟩ := except_bind_ok h
  exact ⟨k, alpha, p, hk, ha, hp, circularOf_ok h⟩

/-- Evenly spaced directions cancel. -/
lemma moment_even (l : List ℝ) (m : ℕ) (hm : 2 ≤ m) (a0 : ℝ)
    (h : List.Forall₂ SameDir l ((List.range m).map fun i : ℕ => a0 + i * (2 * π / m))) :
    moment l (ones l) 1 = 0 := by
  rw [moment, expSum_ones]
  have h1 : resultant l = resultant ((List.range m).map fun i : ℕ => a0 + i * (2 * π / m)) := by
    have := resultant_rotate (a := (List.range m).map fun i : ℕ => a0 + i * (2 * π / m)) (b := l) 0 (by
      refine (List.forall₂_iff_get.2 ?_)
      obtain ⟨hl, hg⟩ := List.forall₂_iff_get.1 h
      exact ⟨hl.symm, fun i hi hj => by rw [add_zero]; exact hg i hj hi⟩)
    simpa using this
  rw [h1]
  have hz := Complex.isPrimitiveRoot_exp m (by omega)
  have hg := hz.geom_sum_eq_zero (by omega)
  have hm0 : (m : ℂ) ≠ 0 := by norm_cast; omega
  have : resultant ((List.range m).map fun i : ℕ => a0 + i * (2 * π / m))
      = Complex.exp ((a0 : ℂ) * Complex.I) * ∑ i ∈ Finset.range m, Complex.exp (2 * π * Complex.I / m) ^ i := by
    have e : ∀ f : ℕ → ℂ, ((List.range m).map f).sum = ∑ i ∈ Finset.range m, f i := fun _ => rfl
    rw [resultant, List.map_map, e, Finset.mul_sum]
    refine Finset.sum_congr rfl fun i _ => ?_
    rw [← Complex.exp_nat_mul, ← Complex.exp_add]
    simp only [Function.comp]
    congr 1
    push_cast
    ring
  rw [this, hg]; simp

/-- A sample whose Rayleigh p value is at least 0.05 and whose median step succeeds gives an object. -/
lemma circularOf_quiet {k : ℝ} {p : Prepared} {kw : Option (Option String)} {opts : MedianOpts} {e : Env}
    {med : Option (List ℝ)} {mci : Option (Option (ℝ × ℝ) × ℝ)} (hs : p.w.sum ≠ 0) (hn : 0 < pyInt p.w.sum)
    (hr : ‖moment p.alpha p.w 1‖ ≤ 1)
    (hp : 0.05 ≤ exp (sqrt (1 + 4 * (pyInt p.w.sum : ℝ) + 4 * ((pyInt p.w.sum : ℝ) ^ 2 -
      (pyInt p.w.sum * ‖moment p.alpha p.w 1‖) ^ 2)) - (1 + 2 * pyInt p.w.sum)))
    (hmed : circMedian p.alpha p.w opts.method opts.returnAverage opts.averageMethod e.init = .ok med) :
    (circularMedianCi p med e = .ok mci → ∃ c, circularOf k p kw opts e = .ok c) ∧
    (circularMedianCi p med e = .error .valueError → circularOf k p kw opts e = .error .valueError) := by
  obtain ⟨s, hs1⟩ : ∃ s, angularStd none none (some ‖moment p.alpha p.w 1‖) (some p.binSize) = .ok s := ⟨_, rfl⟩
  obtain ⟨s0, hs0⟩ : ∃ s, circStd none none (some ‖moment p.alpha p.w 1‖) (some p.binSize) = .ok s := ⟨_, rfl⟩
  have hray := rayleighTest none none (some ‖moment p.alpha p.w 1‖) (some (pyInt p.w.sum)) 1 []
  have key : ∀ mean, (rayleighTest none none (some ‖moment p.alpha p.w 1‖) (some (pyInt p.w.sum)) 1 []).bind
      (fun ray => circularMeanCi p (meanCiMethod kw ray.pval (pyInt p.w.sum)) ray.pval mean ‖moment p.alpha p.w 1‖
        (pyInt p.w.sum) e) = .ok none := by
    intro mean
    simp only [rayleighTest, rayleighOf]
    rw [if_neg (by norm_num), if_neg (by omega), if_neg (not_not.2 ⟨norm_nonneg _, hr⟩)]
    simp only [Except.bind, circularMeanCi]
    split
    · rfl
    · rw [if_neg (not_lt.2 hp)]
  unfold circularOf
  simp only
  rw [circMeanAndR_eq, if_neg hs]
  simp only
  have key' := key (if ‖moment p.alpha p.w 1‖ ≤ 1 / 10 ^ 12 then none
    else some (angmod2pi (Complex.arg (moment p.alpha p.w 1))))
  obtain ⟨ray, hray, hci⟩ := except_bind_ok key'
  rw [hray]
  simp only [Except.bind]
  rw [hci]
  simp only [hs1, hs0, hmed]
  constructor
  · intro h; rw [h]; exact ⟨_, rfl⟩
  · intro h; rw [h]; rfl

/-- `np.histogram` counts the angles between the first and the last edge (both included); the others are dropped. -/
lemma histCounts_sum (alpha : List ℝ) : ∀ (lo : ℝ) (es : List ℝ), (lo :: es).Pairwise (· < ·) → es ≠ [] →
    (histCounts alpha (lo :: es)).sum
      = ((alpha.countP fun a => decide (lo ≤ a) && decide (a ≤ (lo :: es).getLast (by simp)) : ℕ) : ℝ) := by
  intro lo es
  induction es generalizing lo with
  | nil => intro _ h; exact absurd rfl h
  | cons hi rest ih =>
    intro hp _
    cases rest with
    | nil => simp [histCounts]
    | cons x xs =>
      have h1 := ih hi (List.pairwise_cons.1 hp).2 (by simp)
      have h2 : lo < hi := (List.pairwise_cons.1 hp).1 hi (by simp)
      have h3 : hi < (hi :: x :: xs).getLast (by simp) := by
        have hp' := (List.pairwise_cons.1 (List.pairwise_cons.1 hp).2).1
        apply hp'
        rw [List.getLast_cons (by simp)]
        exact List.getLast_mem _
      simp only [histCounts, List.sum_cons] at h1 ⊢
      rw [h1, ← Nat.cast_add]
      congr 1
      rw [List.getLast_cons (a := lo) (by simp)]
      clear h1 ih hp
      induction alpha with
      | nil => simp
      | cons a alpha ih2 =>
        simp only [List.countP_cons]
        have : (if (decide (lo ≤ a) && decide (a < hi)) = true then 1 else 0) +
            (if (decide (hi ≤ a) && decide (a ≤ (hi :: x :: xs).getLast (by simp))) = true then 1 else 0)
            = if (decide (lo ≤ a) && decide (a ≤ (hi :: x :: xs).getLast (by simp))) = true then 1 else 0 := by
          simp only [Bool.and_eq_true, decide_eq_true_eq]
          by_cases hA : lo ≤ a <;> by_cases hB : a < hi <;>
            by_cases hC : a ≤ (hi :: x :: xs).getLast (by simp)
          all_goals simp only [hA, hB, hC, true_and, and_true, and_false, false_and, if_true, if_false]
          all_goals first
            | (rw [if_neg (by linarith)]) | (rw [if_pos (by linarith)]) | (exfalso; linarith) | skip
        omega

lemma histCounts_length (alpha : List ℝ) : ∀ (es : List ℝ), (histCounts alpha es).length = es.length - 1
  | [] => rfl
  | [_] => rfl
  | [_, _] => rfl
  | _ :: b :: c :: rest => by
    have := histCounts_length alpha (b :: c :: rest)
    simp only [histCounts, List.length_cons] at this ⊢
    omega

end Verif
