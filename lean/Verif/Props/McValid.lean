import Verif.Lemmas.McRank
import Verif.Lemmas.Samples
import Verif.Props.Kuiper
import Verif.Props.RaoSpacing
import Verif.Props.Rayleigh
import Verif.Props.Wallraff
import Verif.Model.RaoSim
import Verif.Lemmas.Gaps
import Verif.Lemmas.NoAtoms

/-!
# C136: Monte-Carlo p values keep the level
-/

set_option autoImplicit false

namespace Verif.Props

open Verif Verif.Spec Real MeasureTheory

/-- `B + 1` independent samples of `n` independent uniform angles: sample 0 is the data, the others are the
simulated samples. -/
noncomputable def uniformTables (B n : ℕ) : Measure (Fin (B + 1) → Fin n → ℝ) :=
  Measure.pi fun _ => uniformSample n

/-- The data of a table. -/
def dataOf {B n : ℕ} (u : Fin (B + 1) → Fin n → ℝ) : List ℝ := List.ofFn (u 0)

/-- The simulated samples of a table. -/
def drawsOf {B n : ℕ} (u : Fin (B + 1) → Fin n → ℝ) : List (List ℝ) :=
  List.ofFn fun i : Fin B => List.ofFn (u i.succ)

private lemma draws_map {B n : ℕ} (u : Fin (B + 1) → Fin n → ℝ) (F : List ℝ → ℝ) :
    (drawsOf u).map F = List.ofFn fun i : Fin B => F (List.ofFn (u i.succ)) := by
  unfold drawsOf
  rw [List.map_ofFn]
  rfl

private lemma valid_of {B n : ℕ} (F : List ℝ → ℝ) (hF : Measurable fun x : Fin n → ℝ => F (List.ofFn x))
    (α : ℝ) (hα : 0 ≤ α) :
    uniformTables B n {u | mcPvalue ((drawsOf u).map F) (F (dataOf u)) ≤ α} ≤ ENNReal.ofReal α := by
  have := mc_valid (uniformSample n) _ hF B α hα
  simp only [draws_map]
  exact this

private lemma foldl_max_meas {X : Type*} [MeasurableSpace X] : ∀ (L : List (X → ℝ)), (∀ f ∈ L, Measurable f) →
    ∀ a : X → ℝ, Measurable a → Measurable fun x => (L.map fun f => f x).foldl max (a x)
  | [], _, a, ha => by simpa using ha
  | f :: L, hL, a, ha => by
    have := foldl_max_meas L (fun g hg => hL g (by simp [hg])) (fun x => max (a x) (f x))
      (ha.max (hL f (by simp)))
    simpa using this

private lemma maxL_meas {n : ℕ} (h : Fin (n + 1) → (Fin (n + 1) → ℝ) → ℝ) (hm : ∀ i, Measurable (h i)) :
    ∃ M : (Fin (n + 1) → ℝ) → ℝ, Measurable M ∧ ∀ y, maxL (List.ofFn fun i => h i y) = some (M y) := by
  refine ⟨fun y => ((List.ofFn fun i : Fin n => h i.succ).map fun f => f y).foldl max (h 0 y),
    foldl_max_meas _ (fun f hf => ?_) _ (hm 0), fun y => ?_⟩
  · obtain ⟨i, rfl⟩ := (List.mem_ofFn' _ _).1 hf
    exact hm _
  · simp only [List.ofFn_succ, maxL, List.map_ofFn]
    rfl

private lemma kuiper_meas (n : ℕ) : ∃ F : List ℝ → ℝ, (Measurable fun x : Fin (n + 1) → ℝ => F (List.ofFn x)) ∧
    ∀ x : Fin (n + 1) → ℝ, kuiperV (List.ofFn x) = .ok (F (List.ofFn x)) := by
  obtain ⟨M1, m1, e1⟩ := maxL_meas (n := n) (fun i y => ((i : ℝ) + 1) / (n + 1 : ℕ) - y i / (2 * π)) (by
    intro i; fun_prop)
  obtain ⟨M2, m2, e2⟩ := maxL_meas (n := n) (fun i y => y i / (2 * π) - (i : ℝ) / (n + 1 : ℕ)) (by
    intro i; fun_prop)
  let F : List ℝ → ℝ := fun l => match kuiperV l with
    | .ok v => v
    | .error _ => 0
  have key : ∀ y : Fin (n + 1) → ℝ, Monotone y → kuiperV (List.ofFn y) = .ok (kuiperF (n + 1) * (M1 y + M2 y)) := by
    intro y hy
    unfold kuiperV kuiperPlus kuiperMinus
    simp only [sorted_ofFn hy, mapIdx_ofFn, List.length_ofFn, e1, e2]
  have hF : ∀ l l' : List ℝ, l.Perm l' → F l = F l' := by
    intro l l' h
    simp only [F, kuiperV_perm h]
  refine ⟨F, measurable_symm F hF (fun y => kuiperF (n + 1) * (M1 y + M2 y)) (by fun_prop) ?_, ?_⟩
  · intro y hy
    simp only [F, key y hy]
  · intro x
    have hp := Equiv.Perm.ofFn_comp_perm (Tuple.sort x) x
    have := key _ (Tuple.monotone_sort x)
    rw [kuiperV_perm hp] at this
    simp only [F, this]

private lemma watson_meas (n : ℕ) : Measurable fun x : Fin n → ℝ => watsonU2One (List.ofFn x) := by
  refine measurable_symm watsonU2One ?_ (fun y => (∑ i, ((y i / (2 * π) - ((i : ℝ) + 1 - 0.5) / n) -
    ((∑ j, y j / (2 * π)) / n - 0.5)) ^ 2) + 1 / (12 * n)) ?_ ?_
  · intro l l' h
    unfold watsonU2One
    rw [sortR_eq_of_perm h, h.length_eq]
  · fun_prop
  · intro y hy
    unfold watsonU2One
    simp only [sorted_ofFn hy, List.map_ofFn, mapIdx_ofFn, List.length_ofFn, List.sum_ofFn, Function.comp_apply]

private lemma diff_meas {X : Type*} [MeasurableSpace X] (c : ℝ) : ∀ (L : List (X → ℝ)), (∀ f ∈ L, Measurable f) →
    Measurable fun x => ((diff (L.map fun f => f x)).map fun g => |g - c|).sum
  | [], _ => by simp [diff]
  | [f], _ => by simp [diff]
  | f :: g :: L, hL => by
    have h1 := diff_meas c (g :: L) (fun g hg => hL g (by simp [List.mem_cons.1 hg]))
    have hf := hL f (by simp)
    have hg := hL g (by simp)
    simp only [List.map_cons, diff_cons_cons, List.sum_cons] at h1 ⊢
    have h2 : Measurable fun x => |g x - f x - c| := by fun_prop
    exact h2.add h1

private lemma rao_meas (n : ℕ) : Measurable fun x : Fin (n + 1) → ℝ => raoU (List.ofFn x) := by
  refine measurable_symm raoU (fun l l' h => raoU_perm h) (fun y => 0.5 *
    (((diff ((List.ofFn fun i => fun y : Fin (n + 1) → ℝ => y i).map fun f => f y)).map
      fun g => |g - 2 * π / (n + 1 : ℕ)|).sum + |2 * π - y (Fin.last n) + y 0 - 2 * π / (n + 1 : ℕ)|)) ?_ ?_
  · have h1 := diff_meas (2 * π / (n + 1 : ℕ)) (List.ofFn fun i => fun y : Fin (n + 1) → ℝ => y i) (by
      intro f hf
      obtain ⟨i, rfl⟩ := (List.mem_ofFn' _ _).1 hf
      exact measurable_pi_apply i)
    have h2 : Measurable fun y : Fin (n + 1) → ℝ => |2 * π - y (Fin.last n) + y 0 - 2 * π / (n + 1 : ℕ)| := by
      fun_prop
    exact (h1.add h2).const_mul _
  · intro y hy
    unfold raoU raoSpacings
    have e1 : (List.ofFn y).getLastD 0 = y (Fin.last n) := by
      rw [List.ofFn_succ_last]; simp
    have e2 : (List.ofFn y).headD 0 = y 0 := by simp [List.ofFn_succ]
    have e3 : (List.ofFn fun i => fun y : Fin (n + 1) → ℝ => y i).map (fun f => f y) = List.ofFn y := by
      rw [List.map_ofFn]; rfl
    rw [sorted_ofFn hy, e1, e2, e3, List.length_ofFn, List.map_append, List.sum_append]
    simp

/-- The Rayleigh statistic of a sample. -/
private noncomputable def rayStat (n : ℕ) (u : List ℝ) : ℝ := ‖expSum u (ones u) 1‖ ^ 2 / n

private lemma ray_meas (n : ℕ) : Measurable fun x : Fin n → ℝ => rayStat n (List.ofFn x) := by
  have : (fun x : Fin n → ℝ => rayStat n (List.ofFn x))
      = fun x => ‖∑ i, Complex.exp ((x i : ℂ) * Complex.I)‖ ^ 2 / n := by
    funext x
    unfold rayStat
    simp only [expSum_ones, resultant, List.map_ofFn, List.sum_ofFn, Function.comp_apply]
  rw [this]
  fun_prop

private lemma ofFn_ne {n : ℕ} (hn : 0 < n) (x : Fin n → ℝ) : List.ofFn x ≠ [] := by
  intro h
  have := congrArg List.length h
  simp at this
  omega

private lemma kuiper_key {m B : ℕ} (hB : 2 ≤ B) {F : List ℝ → ℝ}
    (hV : ∀ x : Fin (m + 1) → ℝ, kuiperV (List.ofFn x) = .ok (F (List.ofFn x))) (u : Fin (B + 1) → Fin (m + 1) → ℝ) :
    kuiperTest (dataOf u) B (drawsOf u)
      = .ok (F (dataOf u), mcPvalue ((drawsOf u).map F) (F (dataOf u))) := by
  have hd : (drawsOf u).mapM kuiperV = .ok ((drawsOf u).map F) := by
    have : ∀ l : List (Fin (m + 1) → ℝ), (l.map List.ofFn).mapM kuiperV = .ok ((l.map List.ofFn).map F) := by
      intro l
      induction l with
      | nil => rfl
      | cons a l ih =>
        rw [List.map_cons, List.mapM_cons, hV a, ih]
        rfl
    have h := this (List.ofFn fun i : Fin B => u i.succ)
    rw [List.map_ofFn] at h
    exact h
  unfold kuiperTest
  rw [if_neg (by omega), if_neg (by simp [dataOf]), hd]
  simp only [dataOf, hV]
  simp only [Except.bind]
  rw [if_neg (by omega)]
  rfl

/-- C136. Kuiper's test with `B ≥ 2` simulations: for uniform data the p value is at most `α` with
probability at most `α`. -/
theorem C136_kuiper_level (n B : ℕ) (hn : 0 < n) (hB : 2 ≤ B) (α : ℝ) (hα : 0 ≤ α) :
    (∀ u : Fin (B + 1) → Fin n → ℝ, ∃ V p, kuiperTest (dataOf u) B (drawsOf u) = .ok (V, p)) ∧
    uniformTables B n {u | ∃ V p, kuiperTest (dataOf u) B (drawsOf u) = .ok (V, p) ∧ p ≤ α}
      ≤ ENNReal.ofReal α := by
  obtain ⟨m, rfl⟩ : ∃ m, n = m + 1 := ⟨n - 1, by omega⟩
  obtain ⟨F, hF, hV⟩ := kuiper_meas m
  refine ⟨fun u => ⟨_, _, kuiper_key hB hV u⟩, ?_⟩
  refine le_trans (measure_mono ?_) (valid_of F hF α hα)
  rintro u ⟨V, p, h, hp⟩
  rw [kuiper_key hB hV u] at h
  simp only [Except.ok.injEq, Prod.mk.injEq] at h
  rw [Set.mem_ofPred_eq, h.2]
  exact hp

private lemma watson_key {n B : ℕ} (hn : 0 < n) (hB : 2 ≤ B) (u : Fin (B + 1) → Fin n → ℝ) :
    watsonTest (dataOf u) B (drawsOf u)
      = .ok (watsonU2One (dataOf u), mcPvalue ((drawsOf u).map watsonU2One) (watsonU2One (dataOf u))) := by
  unfold watsonTest
  rw [if_neg (by omega), if_neg (by simp [dataOf]; omega)]
  simp only
  rw [if_neg (by omega)]

/-- C136. Watson's test with `B ≥ 2` simulations. -/
theorem C136_watson_level (n B : ℕ) (hn : 0 < n) (hB : 2 ≤ B) (α : ℝ) (hα : 0 ≤ α) :
    (∀ u : Fin (B + 1) → Fin n → ℝ, ∃ U p, watsonTest (dataOf u) B (drawsOf u) = .ok (U, p)) ∧
    uniformTables B n {u | ∃ U p, watsonTest (dataOf u) B (drawsOf u) = .ok (U, p) ∧ p ≤ α}
      ≤ ENNReal.ofReal α := by
  refine ⟨fun u => ⟨_, _, watson_key hn hB u⟩, ?_⟩
  refine le_trans (measure_mono ?_) (valid_of watsonU2One (watson_meas n) α hα)
  rintro u ⟨V, p, h, hp⟩
  rw [watson_key hn hB u] at h
  simp only [Except.ok.injEq, Prod.mk.injEq] at h
  rw [Set.mem_ofPred_eq, h.2]
  exact hp

private lemma rao_key {m B : ℕ} (hB : 1 ≤ B) (u : Fin (B + 1) → Fin (m + 1) → ℝ) :
    raoSpacingTest (dataOf u) none B (drawsOf u)
      = .ok (raoU (dataOf u) * (180 / π), mcPvalue ((drawsOf u).map raoU) (raoU (dataOf u))) := by
  unfold raoSpacingTest
  rw [if_neg (by omega), if_neg (by simp [dataOf])]
  rfl

/-- C136. Rao's spacing test of ungrouped data. -/
theorem C136_rao_level (n B : ℕ) (hn : 0 < n) (hB : 1 ≤ B) (α : ℝ) (hα : 0 ≤ α) :
    (∀ u : Fin (B + 1) → Fin n → ℝ, ∃ U p, raoSpacingTest (dataOf u) none B (drawsOf u) = .ok (U, p)) ∧
    uniformTables B n {u | ∃ U p, raoSpacingTest (dataOf u) none B (drawsOf u) = .ok (U, p) ∧ p ≤ α}
      ≤ ENNReal.ofReal α := by
  obtain ⟨m, rfl⟩ : ∃ m, n = m + 1 := ⟨n - 1, by omega⟩
  refine ⟨fun u => ⟨_, _, rao_key hB u⟩, ?_⟩
  refine le_trans (measure_mono ?_) (valid_of raoU (rao_meas m) α hα)
  rintro u ⟨V, p, h, hp⟩
  rw [rao_key hB u] at h
  simp only [Except.ok.injEq, Prod.mk.injEq] at h
  rw [Set.mem_ofPred_eq, h.2]
  exact hp

private lemma exact_of {B n : ℕ} (F : List ℝ → ℝ) (hF : Measurable fun x : Fin n → ℝ => F (List.ofFn x))
    (hc : ∀ c, uniformSample n {x | F (List.ofFn x) = c} = 0) (test : (Fin (B + 1) → Fin n → ℝ) → Except PyErr (ℝ × ℝ))
    (S : (Fin (B + 1) → Fin n → ℝ) → ℝ)
    (key : ∀ u, test u = .ok (S u, mcPvalue ((drawsOf u).map F) (F (dataOf u)))) (k : ℕ) (hk : k ≤ B + 1) :
    uniformTables B n {u | ∃ V p : ℝ, test u = .ok (V, p) ∧ p ≤ (k : ℝ) / (B + 1)} = ENNReal.ofReal ((k : ℝ) / (B + 1)) := by
  rw [← mc_exact (uniformSample n) _ hF hc B k hk]
  unfold uniformTables
  congr 1
  ext u
  have h2 := key u
  simp only [draws_map] at h2
  constructor
  · rintro ⟨V, p, h, hp⟩
    rw [h] at h2
    simp only [Except.ok.injEq, Prod.mk.injEq] at h2
    rw [h2.2] at hp
    exact hp
  · intro h
    exact ⟨_, _, h2, h⟩

/-- C136. For two or more angles the simulated p value of Kuiper's test is exact: it is at most `k/(B+1)` with
probability `k/(B+1)`. -/
theorem C136_kuiper_exact (n B k : ℕ) (hn : 2 ≤ n) (hB : 2 ≤ B) (hk : k ≤ B + 1) :
    uniformTables B n {u | ∃ V p : ℝ, kuiperTest (dataOf u) B (drawsOf u) = .ok (V, p) ∧ p ≤ (k : ℝ) / (B + 1)}
      = ENNReal.ofReal ((k : ℝ) / (B + 1)) := by
  obtain ⟨m, rfl⟩ : ∃ m, n = m + 1 := ⟨n - 1, by omega⟩
  obtain ⟨F, hF, hV⟩ := kuiper_meas m
  refine exact_of F hF (fun c => ?_) _ _ (kuiper_key hB hV) k hk
  have := kuiper_atoms hn c
  simpa only [hV, Except.ok.injEq] using this

/-- C136. For two or more angles the simulated p value of Watson's test is exact. -/
theorem C136_watson_exact (n B k : ℕ) (hn : 2 ≤ n) (hB : 2 ≤ B) (hk : k ≤ B + 1) :
    uniformTables B n {u | ∃ U p : ℝ, watsonTest (dataOf u) B (drawsOf u) = .ok (U, p) ∧ p ≤ (k : ℝ) / (B + 1)}
      = ENNReal.ofReal ((k : ℝ) / (B + 1)) :=
  exact_of watsonU2One (watson_meas n) (watson_atoms hn) _ _ (watson_key (by omega) hB) k hk

/-- C136. For two or more ungrouped angles the simulated p value of Rao's spacing test is exact. -/
theorem C136_rao_exact (n B k : ℕ) (hn : 2 ≤ n) (hB : 1 ≤ B) (hk : k ≤ B + 1) :
    uniformTables B n {u | ∃ U p : ℝ, raoSpacingTest (dataOf u) none B (drawsOf u) = .ok (U, p) ∧
      p ≤ (k : ℝ) / (B + 1)} = ENNReal.ofReal ((k : ℝ) / (B + 1)) := by
  obtain ⟨m, rfl⟩ : ∃ m, n = m + 1 := ⟨n - 1, by omega⟩
  exact exact_of raoU (rao_meas m) (rao_atoms hn) _ _ (rao_key hB) k hk

/-- A witness: with 9999 simulations of 20 angles, the p value is at most 0.05 with probability 0.05. -/
example : uniformTables 9999 20 {u | ∃ V p : ℝ, kuiperTest (dataOf u) (9999 : ℕ) (drawsOf u) = .ok (V, p) ∧
    p ≤ ((500 : ℕ) : ℝ) / ((9999 : ℕ) + 1)} = ENNReal.ofReal (((500 : ℕ) : ℝ) / ((9999 : ℕ) + 1)) :=
  C136_kuiper_exact 20 9999 500 (by norm_num) (by norm_num) (by norm_num)

private lemma ray_key {n B : ℕ} (hn : 0 < n) (hB : 2 ≤ B) (u : Fin (B + 1) → Fin n → ℝ) :
    ∃ res, rayleighTest (some (dataOf u)) none none none B (drawsOf u) = .ok res ∧
      res.bootstrapPval = some (mcPvalue ((drawsOf u).map (rayStat n)) (rayStat n (dataOf u))) := by
  have hl : (dataOf u).length = n := by simp [dataOf]
  have hn' : (n : ℝ) ≠ 0 := by positivity
  obtain ⟨res, h1, hr, hz, -, -, h2⟩ := C30_rayleigh_sample (dataOf u) B (drawsOf u) (by omega) (ofFn_ne hn _)
  refine ⟨res, h1, ?_⟩
  obtain ⟨k, -, -, hk, hp⟩ := (C31_rayleigh none none res.r (dataOf u).length B (drawsOf u) (by simp [drawsOf]) res h2).2
    (by omega)
  have e : (((dataOf u).length : ℤ) : ℝ) * res.r ^ 2 = rayStat n (dataOf u) := by
    rw [hr, moment, sum_ones, norm_div, hl]
    unfold rayStat
    simp only [Int.cast_natCast, Complex.norm_natCast, Complex.ofReal_natCast]
    field_simp
  rw [hp, hk, e, hl]
  unfold mcPvalue
  rw [List.countP_map, List.length_map]
  simp only [Int.cast_natCast]
  have : (drawsOf u).length = B := by simp [drawsOf]
  rw [this]
  push_cast
  rfl

/-- C136. The simulated p value of Rayleigh's test, `B ≥ 2`. -/
theorem C136_rayleigh_level (n B : ℕ) (hn : 0 < n) (hB : 2 ≤ B) (α : ℝ) (hα : 0 ≤ α) :
    (∀ u : Fin (B + 1) → Fin n → ℝ, ∃ res p,
      rayleighTest (some (dataOf u)) none none none B (drawsOf u) = .ok res ∧ res.bootstrapPval = some p) ∧
    uniformTables B n {u | ∃ res p, rayleighTest (some (dataOf u)) none none none B (drawsOf u) = .ok res ∧
      res.bootstrapPval = some p ∧ p ≤ α} ≤ ENNReal.ofReal α := by
  refine ⟨fun u => ?_, ?_⟩
  · obtain ⟨res, h1, h2⟩ := ray_key hn hB u
    exact ⟨res, _, h1, h2⟩
  refine le_trans (measure_mono ?_) (valid_of (rayStat n) (ray_meas n) α hα)
  rintro u ⟨res', p, h, h', hp⟩
  obtain ⟨res, h1, h2⟩ := ray_key hn hB u
  rw [h] at h1
  cases h1
  rw [h'] at h2
  cases h2
  exact hp


private lemma countable_cos (d : ℝ) : {t : ℝ | cos t = d}.Countable := by
  rcases Set.eq_empty_or_nonempty {t : ℝ | cos t = d} with h | ⟨t₀, h₀⟩
  · rw [h]; exact Set.countable_empty
  · refine Set.Countable.mono ?_ ((Set.countable_range fun k : ℤ => 2 * (k : ℝ) * π + t₀).union
      (Set.countable_range fun k : ℤ => 2 * (k : ℝ) * π - t₀))
    intro t ht
    have : cos t₀ = cos t := by rw [show cos t = d from ht]; exact h₀
    obtain ⟨k, hk | hk⟩ := Real.cos_eq_cos_iff.1 this
    · exact Or.inl ⟨k, hk.symm⟩
    · exact Or.inr ⟨k, hk.symm⟩

private lemma normSq_add_exp (b : ℂ) (t : ℝ) :
    ‖b + Complex.exp ((t : ℂ) * Complex.I)‖ ^ 2 = ‖b‖ ^ 2 + 1 + 2 * ‖b‖ * cos (t - b.arg) := by
  have hb : b = ‖b‖ * Complex.exp ((b.arg : ℂ) * Complex.I) := (Complex.norm_mul_exp_arg_mul_I b).symm
  have h1 : b.re = ‖b‖ * cos b.arg := by
    conv_lhs => rw [hb]
    rw [Complex.re_ofReal_mul, Complex.exp_ofReal_mul_I_re]
  have h2 : b.im = ‖b‖ * sin b.arg := by
    conv_lhs => rw [hb]
    rw [Complex.im_ofReal_mul, Complex.exp_ofReal_mul_I_im]
  rw [← Complex.normSq_eq_norm_sq (b + _), Complex.normSq_apply, Complex.add_re, Complex.add_im,
    Complex.exp_ofReal_mul_I_re, Complex.exp_ofReal_mul_I_im, h1, h2, cos_sub]
  have e1 := sin_sq_add_cos_sq t
  have e2 := sin_sq_add_cos_sq b.arg
  linear_combination e1 + ‖b‖ ^ 2 * e2

private lemma null_one (b : ℂ) (hb : b ≠ 0) (c : ℝ) :
    uniformLaw {t : ℝ | ‖b + Complex.exp ((t : ℂ) * Complex.I)‖ ^ 2 = c} = 0 := by
  have hr : ‖b‖ ≠ 0 := by simpa using hb
  refine uniform_countable ?_
  have : {t : ℝ | ‖b + Complex.exp ((t : ℂ) * Complex.I)‖ ^ 2 = c}
      ⊆ (fun t => t - b.arg) ⁻¹' {t | cos t = (c - ‖b‖ ^ 2 - 1) / (2 * ‖b‖)} := by
    intro t ht
    have ht' : ‖b + Complex.exp ((t : ℂ) * Complex.I)‖ ^ 2 = c := ht
    rw [normSq_add_exp] at ht'
    show cos (t - b.arg) = _
    rw [← ht']
    field_simp
    ring
  exact Set.Countable.mono this ((countable_cos _).preimage (sub_left_injective))

private lemma null_many : ∀ (m : ℕ) (b : ℂ), b ≠ 0 → ∀ c : ℝ,
    uniformSample (m + 1) {y | ‖b + ∑ i, Complex.exp ((y i : ℂ) * Complex.I)‖ ^ 2 = c} = 0 := by
  have hm : ∀ (m : ℕ) (b : ℂ) (c : ℝ),
      MeasurableSet {y : Fin m → ℝ | ‖b + ∑ i, Complex.exp ((y i : ℂ) * Complex.I)‖ ^ 2 = c} := fun m b c =>
    measurableSet_eq_fun (by fun_prop) measurable_const
  intro m
  induction m with
  | zero =>
    intro b hb c
    rw [uniformSample_split 0 (hm 1 b c), lintegral_eq_zero_iff']
    · have h := null_one b hb c
      rw [← compl_compl {t : ℝ | ‖b + Complex.exp ((t : ℂ) * Complex.I)‖ ^ 2 = c}] at h
      filter_upwards [mem_ae_iff.2 h] with t ht
      have : {y : Fin 0 → ℝ | (0 : Fin 1).insertNth t y ∈
          {y : Fin 1 → ℝ | ‖b + ∑ i, Complex.exp ((y i : ℂ) * Complex.I)‖ ^ 2 = c}} = ∅ := by
        rw [Set.eq_empty_iff_forall_notMem]
        intro y hy
        apply ht
        simpa using hy
      show uniformSample 0 {y : Fin 0 → ℝ | (0 : Fin 1).insertNth t y ∈
          {y : Fin 1 → ℝ | ‖b + ∑ i, Complex.exp ((y i : ℂ) * Complex.I)‖ ^ 2 = c}} = 0
      rw [this, measure_empty]
    · exact (measurable_measure_prodMk_left ((measurePreserving_piFinSuccAbove
        (fun _ : Fin 1 => uniformLaw) 0).symm.measurable (hm 1 b c))).aemeasurable
  | succ m ih =>
    intro b hb c
    rw [uniformSample_split 0 (hm _ b c), lintegral_eq_zero_iff']
    · have h := null_one b hb 0
      rw [← compl_compl {t : ℝ | ‖b + Complex.exp ((t : ℂ) * Complex.I)‖ ^ 2 = 0}] at h
      filter_upwards [mem_ae_iff.2 h] with t ht
      have hne : b + Complex.exp ((t : ℂ) * Complex.I) ≠ 0 := by
        intro h0
        apply ht
        show ‖b + Complex.exp ((t : ℂ) * Complex.I)‖ ^ 2 = 0
        rw [h0]; simp
      have := ih _ hne c
      show uniformSample (m + 1) {y : Fin (m + 1) → ℝ | (0 : Fin (m + 1 + 1)).insertNth t y ∈
          {y : Fin (m + 1 + 1) → ℝ | ‖b + ∑ i, Complex.exp ((y i : ℂ) * Complex.I)‖ ^ 2 = c}} = 0
      convert this using 2
      ext y
      simp only [Set.mem_ofPred_eq]
      rw [Fin.sum_univ_succAbove _ 0]
      simp only [Fin.insertNth_apply_same, Fin.insertNth_apply_succAbove, add_assoc]
    · exact (measurable_measure_prodMk_left ((measurePreserving_piFinSuccAbove
        (fun _ : Fin (m + 1 + 1) => uniformLaw) 0).symm.measurable (hm _ b c))).aemeasurable

private lemma ray_atoms (n : ℕ) (hn : 2 ≤ n) (c : ℝ) : uniformSample n {x | rayStat n (List.ofFn x) = c} = 0 := by
  obtain ⟨m, rfl⟩ : ∃ m, n = m + 1 + 1 := ⟨n - 2, by omega⟩
  rw [uniformSample_split 0 (show MeasurableSet {x : Fin (m + 1 + 1) → ℝ | rayStat (m + 1 + 1) (List.ofFn x) = c}
    from (ray_meas _) (measurableSet_singleton c))]
  have : ∀ t : ℝ, uniformSample (m + 1) {y | (0 : Fin (m + 1 + 1)).insertNth t y ∈
      {x : Fin (m + 1 + 1) → ℝ | rayStat (m + 1 + 1) (List.ofFn x) = c}} = 0 := by
    intro t
    have h := null_many m (Complex.exp ((t : ℂ) * Complex.I)) (Complex.exp_ne_zero _) (c * ((m + 1 + 1 : ℕ) : ℝ))
    convert h using 2
    ext y
    have hpos : (0 : ℝ) < ((m + 1 + 1 : ℕ) : ℝ) := by positivity
    simp only [Set.mem_ofPred_eq, rayStat, expSum_ones, resultant, List.map_ofFn, List.sum_ofFn, Function.comp_apply]
    rw [Fin.sum_univ_succAbove _ 0, div_eq_iff hpos.ne']
    simp only [Fin.insertNth_apply_same, Fin.insertNth_apply_succAbove]
  exact (lintegral_congr this).trans lintegral_zero

/-- C136. For two or more angles the simulated p value of Rayleigh's test is exact: it is at most `k/(B+1)` with
probability `k/(B+1)`. -/
theorem C136_rayleigh_exact (n B k : ℕ) (hn : 2 ≤ n) (hB : 2 ≤ B) (hk : k ≤ B + 1) :
    uniformTables B n {u | ∃ res p, rayleighTest (some (dataOf u)) none none none B (drawsOf u) = .ok res ∧
      res.bootstrapPval = some p ∧ p ≤ (k : ℝ) / (B + 1)} = ENNReal.ofReal ((k : ℝ) / (B + 1)) := by
  rw [← mc_exact (uniformSample n) _ (ray_meas n) (ray_atoms n hn) B k hk]
  unfold uniformTables
  congr 1
  ext u
  obtain ⟨res, h1, h2⟩ := ray_key (by omega) hB u
  simp only [draws_map] at h2
  constructor
  · rintro ⟨res', p, h, h', hp⟩
    rw [h] at h1
    cases h1
    rw [h'] at h2
    cases h2
    exact hp
  · intro h
    exact ⟨res, _, h1, h2, h⟩

/-- The frequencies of two observations that fall into classes `ij.1` and `ij.2` of `m`. -/
def pairFreqs {m : ℕ} (ij : Fin m × Fin m) : List ℕ :=
  List.ofFn fun k => (if k = ij.1 then 1 else 0) + (if k = ij.2 then 1 else 0)

private lemma raoU_same (a : ℝ) : raoU [a, a] = π := by
  have hs : sortR [a, a] = [a, a] := sortR_eq_self (by simp)
  have hp := pi_pos
  unfold raoU raoSpacings
  rw [hs]
  simp only [diff, List.tail_cons, List.zipWith_cons_cons, List.zipWith_nil_right, List.cons_append, List.nil_append,
    List.map_cons, List.map_nil, List.sum_cons, List.sum_nil, List.getLastD_cons, List.headD_cons, List.length_cons,
    List.length_nil, sub_self]
  have e1 : |0 - 2 * π / ((0 + 1 + 1 : ℕ) : ℝ)| = π := by
    rw [abs_of_nonpos (by norm_num; positivity)]; norm_num
  have e2 : |2 * π - a + a - 2 * π / ((0 + 1 + 1 : ℕ) : ℝ)| = π := by
    rw [show 2 * π - a + a - 2 * π / ((0 + 1 + 1 : ℕ) : ℝ) = π by norm_num; ring, abs_of_pos hp]
  simp only [List.getLastD_nil]
  rw [e1, e2]; norm_num; ring

private lemma raoU_pair {x y : ℝ} (hx : 0 ≤ x ∧ x < 2 * π) (hy : 0 ≤ y ∧ y < 2 * π) (h : x ≠ y) :
    raoU [x, y] < π := by
  have main : ∀ x y : ℝ, 0 ≤ x → y < 2 * π → x < y → raoU [x, y] < π := by
    intro x y hx hy h
    have hs : sortR [x, y] = [x, y] := sortR_eq_self (by simp [h.le])
    have hp := pi_pos
    unfold raoU raoSpacings
    rw [hs]
    simp only [diff, List.tail_cons, List.zipWith_cons_cons, List.zipWith_nil_right, List.cons_append, List.nil_append,
      List.map_cons, List.map_nil, List.sum_cons, List.sum_nil, List.getLastD_cons, List.headD_cons, List.length_cons,
      List.length_nil, List.getLastD_nil]
    have e1 : |y - x - 2 * π / ((0 + 1 + 1 : ℕ) : ℝ)| < π := by
      rw [abs_lt]; constructor <;> norm_num <;> linarith
    have e2 : |2 * π - y + x - 2 * π / ((0 + 1 + 1 : ℕ) : ℝ)| < π := by
      rw [abs_lt]; constructor <;> norm_num <;> linarith
    norm_num at e1 e2 ⊢
    linarith
  rcases lt_or_gt_of_ne h with h | h
  · exact main x y hx.1 hy.2 h
  · rw [raoU_perm (List.Perm.swap y x [])]
    exact main y x hy.1 hx.2 h

private lemma expand_same {m : ℕ} (a : Fin m → ℝ) (i : Fin m) : expand (List.ofFn a) (pairFreqs (i, i)) = [a i, a i] := by
  have e : expand (List.ofFn a) (pairFreqs (i, i))
      = (List.ofFn fun k => List.replicate (if k = i then 2 else 0) (a k)).flatten := by
    unfold expand pairFreqs
    congr 1
    apply List.ext_getElem
    · simp
    · intro j h1 h2
      simp only [List.getElem_zipWith, List.getElem_ofFn]
      congr 1
      split_ifs <;> rfl
  rw [e]
  have : (List.ofFn fun k => List.replicate (if k = i then 2 else 0) (a k)).flatten = List.replicate 2 (a i) := by
    rw [List.eq_replicate_iff]
    constructor
    · rw [List.length_flatten, List.map_ofFn, List.sum_ofFn]
      simp
    · intro b hb
      obtain ⟨l, hl, hbl⟩ := List.mem_flatten.1 hb
      obtain ⟨k, rfl⟩ := (List.mem_ofFn' _ _).1 hl
      obtain ⟨h1, h2⟩ := List.mem_replicate.1 hbl
      by_cases hk : k = i
      · rw [h2, hk]
      · rw [if_neg hk] at h1; exact absurd rfl h1
  rw [this]; rfl

open Classical in
/-- C136. For grouped data Rao's test does not keep the level. Two observations spread evenly and independently
over `m` classes have the smallest p value that `B` simulations can give, `1/(B+1)`, with probability at least
`1/m`, however large `B` is. (The noise added to the simulated samples only must not differ by a multiple of the
class width within a sample, which has probability one.) -/
theorem C136_rao_grouped_fails (m B : ℕ) (hm : 0 < m) (hB : 1 ≤ B) (a : Fin m → ℝ) (rows : List (List ℝ × List ℝ))
    (hlen : rows.length = B)
    (hrows : ∀ r ∈ rows, ∃ u v e f : ℝ, r = ([u, v], [e, f]) ∧ ∀ k : ℤ, e - f ≠ k * (2 * π / m)) :
    (m : ℝ)⁻¹ ≤ ((Finset.univ.filter fun ij : Fin m × Fin m => ∃ U p : ℝ,
      raoGroupedTest (List.ofFn a) ((pairFreqs ij).map fun k : ℕ => (k : ℝ)) B rows = Except.ok (U, p) ∧
        p = 1 / ((B : ℝ) + 1)).card : ℝ) / Fintype.card (Fin m × Fin m) := by
  classical
  have hm' : (0 : ℝ) < m := by exact_mod_cast hm
  have key : ∀ i : Fin m, ∃ U p, raoGroupedTest (List.ofFn a) ((pairFreqs (i, i)).map fun k : ℕ => (k : ℝ)) B rows
      = .ok (U, p) ∧ p = 1 / ((B : ℝ) + 1) := by
    intro i
    unfold raoGroupedTest
    rw [C90_rao_frequencies _ _ _ _ (by simp [pairFreqs]) (by
      unfold pairFreqs
      rw [List.sum_ofFn]
      refine Finset.sum_pos' (fun _ _ => by positivity) ⟨i, Finset.mem_univ _, by simp⟩), expand_same]
    unfold raoSpacingTest
    rw [if_neg (by omega), if_neg (by simp)]
    refine ⟨_, _, rfl, ?_⟩
    rw [raoU_same]
    unfold mcPvalue
    rw [List.countP_eq_zero.2]
    · simp [hlen]
    · intro s hs
      obtain ⟨d, hd, rfl⟩ := List.mem_map.1 hs
      obtain ⟨r, hr, rfl⟩ := List.mem_map.1 hd
      obtain ⟨u, v, e, f, rfl, hne⟩ := hrows r hr
      simp only [decide_eq_true_eq, not_le]
      simp only [raoGroupedSample, List.zipWith_cons_cons, List.zipWith_nil_right, List.length_ofFn]
      refine raoU_pair ⟨angmod2pi_nonneg _, angmod2pi_lt _⟩ ⟨angmod2pi_nonneg _, angmod2pi_lt _⟩ ?_
      intro h
      obtain ⟨k, hk⟩ := angmod2pi_eq_iff_sameDir.1 h
      apply hne (⌊v * m / (2 * π)⌋ - ⌊u * m / (2 * π)⌋ + k * m)
      push_cast
      have : (k * m : ℝ) * (2 * π / m) = k * (2 * π) := by field_simp
      rw [add_mul, this]
      linarith
  have hsub : (Finset.univ.image fun i : Fin m => (i, i)) ⊆ Finset.univ.filter fun ij : Fin m × Fin m => ∃ U p : ℝ,
      raoGroupedTest (List.ofFn a) ((pairFreqs ij).map fun k : ℕ => (k : ℝ)) B rows = Except.ok (U, p) ∧
        p = 1 / ((B : ℝ) + 1) := by
    intro ij h
    obtain ⟨i, -, rfl⟩ := Finset.mem_image.1 h
    exact Finset.mem_filter.2 ⟨Finset.mem_univ _, key i⟩
  have hc := Finset.card_le_card hsub
  rw [Finset.card_image_of_injective _ (fun i j h => (Prod.mk.inj h).1), Finset.card_univ, Fintype.card_fin] at hc
  rw [Fintype.card_prod, Fintype.card_fin, le_div_iff₀ (by push_cast; positivity)]
  rw [Nat.cast_mul, inv_mul_cancel_left₀ hm'.ne']
  exact Nat.cast_le.2 hc

/-- Noise that meets the hypothesis. -/
example : ∀ k : ℤ, π / 12 - 0 ≠ k * (2 * π / (12 : ℕ)) := by
  intro k h
  have hp := pi_pos
  have h2 : (1 : ℝ) = 2 * k := by
    push_cast at h
    have h3 : π * 1 = π * (2 * k) := by linarith
    exact mul_left_cancel₀ hp.ne' h3
  have : (1 : ℤ) = 2 * k := by exact_mod_cast h2
  omega

private lemma artExtreme_mc (perms : List (List ℝ)) (n1 : ℕ) (obs : ℝ) (B : ℕ) (h : perms.length = B) :
    (artExtreme perms n1 obs : ℝ) / ((B : ℤ) + 1)
      = mcPvalue (perms.map fun p => artStatistic (p.take n1) (p.drop n1)) obs := by
  rw [artExtreme_eq]
  unfold mcPvalue
  rw [List.countP_map, List.length_map, h]
  push_cast
  rfl

open Classical in
/-- C136. The angular randomisation test: whatever the pooled data, if every allocation of the `n + m` angles to
the two samples and every sequence of `B` permutations is equally likely, the share of cases with p value at most
`α` is at most `α`. -/
theorem C136_angular_randomisation_level (n m B : ℕ) (hn : 0 < n) (hm : 0 < m) (hB : 1 ≤ B) (z : Fin (n + m) → ℝ)
    (α : ℝ) (hα : 0 ≤ α) :
    ((Finset.univ.filter fun σ : Fin (B + 1) → Equiv.Perm (Fin (n + m)) => ∃ T p : ℝ,
      artTest [plain ((List.ofFn (z ∘ σ 0)).take n), plain ((List.ofFn (z ∘ σ 0)).drop n)] B
        (List.ofFn fun i : Fin B => List.ofFn (z ∘ σ 0 ∘ σ i.succ)) = Except.ok (T, p) ∧ p ≤ α).card : ℝ)
      / Fintype.card (Fin (B + 1) → Equiv.Perm (Fin (n + m))) ≤ α := by
  classical
  let T : Equiv.Perm (Fin (n + m)) → ℝ := fun σ =>
    artStatistic ((List.ofFn (z ∘ σ)).take n) ((List.ofFn (z ∘ σ)).drop n)
  have hc : (0 : ℝ) < Fintype.card (Fin (B + 1) → Equiv.Perm (Fin (n + m))) := by
    exact_mod_cast Fintype.card_pos
  rw [div_le_iff₀ hc]
  have hfin := mc_valid_finite (S := Equiv.Perm (Fin (n + m))) T B α hα
  refine le_trans ?_ hfin
  norm_cast
  let Φ : (Fin (B + 1) → Equiv.Perm (Fin (n + m))) → (Fin (B + 1) → Equiv.Perm (Fin (n + m))) :=
    fun σ => Fin.cons (σ 0) fun i => σ 0 * σ i.succ
  refine Finset.card_le_card_of_injOn Φ ?_ ?_
  · intro σ hσ
    obtain ⟨-, V, p, h, hp⟩ := Finset.mem_filter.1 (Finset.mem_coe.1 hσ)
    rw [art_plain (by simp; omega) (by simp; omega), if_neg (by omega)] at h
    simp only [Except.ok.injEq, Prod.mk.injEq] at h
    refine Finset.mem_coe.2 (Finset.mem_filter.2 ⟨Finset.mem_univ _, ?_⟩)
    rw [← h.2] at hp
    have hl : ((List.ofFn (z ∘ σ 0)).take n).length = n := by simp
    rw [hl, artExtreme_mc _ _ _ B (by simp), List.map_ofFn] at hp
    exact hp
  · intro σ _ τ _ h
    have h0 : σ 0 = τ 0 := congrFun h 0
    funext j
    refine Fin.cases h0 (fun i => ?_) j
    have := congrFun h i.succ
    simp only [Φ, Fin.cons_succ, h0] at this
    exact mul_left_cancel this

end Verif.Props
