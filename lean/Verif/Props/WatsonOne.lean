import Verif.Props.Kuiper
import Mathlib.MeasureTheory.Integral.IntervalIntegral.FundThmCalculus
import Mathlib.Analysis.SpecialFunctions.Integrals.Basic

/-!
# C42 (Watson's one-sample test) and the Watson part of C31
-/

namespace Verif.Props

open Real Spec

set_option autoImplicit false

/-- The kernel of Watson's statistic, in turns: `d²/2 - |d|/2 + 1/12` (half a Bernoulli polynomial). -/
noncomputable def watsonKernel (d : ℝ) : ℝ := d ^ 2 / 2 - |d| / 2 + 1 / 12

/-- Sum of `f a b` over all ordered pairs of observations. -/
noncomputable def pairSum (x : List ℝ) (f : ℝ → ℝ → ℝ) : ℝ := (x.map fun a => (x.map fun b => f a b).sum).sum

lemma sum_map_congr {α : Type} {l : List α} {f g : α → ℝ} (h : ∀ a ∈ l, f a = g a) :
    (l.map f).sum = (l.map g).sum := by rw [List.map_congr_left h]

lemma sum_map_add' {α : Type} (l : List α) (f g : α → ℝ) :
    (l.map fun a => f a + g a).sum = (l.map f).sum + (l.map g).sum := by
  induction l with
  | nil => simp
  | cons a l ih => simp only [List.map_cons, List.sum_cons, ih]; ring

lemma sum_map_const' {α : Type} (l : List α) (c : ℝ) : (l.map fun _ => c).sum = l.length * c := by
  induction l with
  | nil => simp
  | cons a l ih => simp only [List.map_cons, List.sum_cons, ih, List.length_cons]; push_cast; ring

lemma sum_map_mul' {α : Type} (l : List α) (c : ℝ) (f : α → ℝ) :
    (l.map fun a => c * f a).sum = c * (l.map f).sum := by
  induction l with
  | nil => simp
  | cons a l ih => simp only [List.map_cons, List.sum_cons, ih]; ring

lemma pairSum_perm {x y : List ℝ} (h : x.Perm y) (f : ℝ → ℝ → ℝ) : pairSum x f = pairSum y f := by
  unfold pairSum
  rw [(h.map _).sum_eq]
  exact sum_map_congr fun a _ => (h.map _).sum_eq

lemma pairSum_map (x : List ℝ) (g : ℝ → ℝ) (f : ℝ → ℝ → ℝ) :
    pairSum (x.map g) f = pairSum x fun a b => f (g a) (g b) := by
  unfold pairSum
  rw [List.map_map]
  refine sum_map_congr fun a _ => ?_
  simp only [Function.comp_apply, List.map_map]
  rfl

lemma pairSum_congr {x : List ℝ} {f g : ℝ → ℝ → ℝ} (h : ∀ a ∈ x, ∀ b ∈ x, f a b = g a b) :
    pairSum x f = pairSum x g :=
  sum_map_congr fun a ha => sum_map_congr fun b hb => h a ha b hb

lemma pairSum_add (x : List ℝ) (f g : ℝ → ℝ → ℝ) :
    pairSum x (fun a b => f a b + g a b) = pairSum x f + pairSum x g := by
  unfold pairSum
  rw [← sum_map_add']
  exact sum_map_congr fun a _ => sum_map_add' x _ _

lemma pairSum_mul (x : List ℝ) (c : ℝ) (f : ℝ → ℝ → ℝ) :
    pairSum x (fun a b => c * f a b) = c * pairSum x f := by
  unfold pairSum
  rw [← sum_map_mul']
  exact sum_map_congr fun a _ => sum_map_mul' x _ _

lemma pairSum_const (x : List ℝ) (c : ℝ) : pairSum x (fun _ _ => c) = x.length ^ 2 * c := by
  unfold pairSum
  rw [sum_map_const', sum_map_const']; ring

lemma pairSum_fst (x : List ℝ) (f : ℝ → ℝ) : pairSum x (fun a _ => f a) = x.length * (x.map f).sum := by
  unfold pairSum
  rw [← sum_map_mul']
  exact sum_map_congr fun a _ => sum_map_const' x _

lemma pairSum_snd (x : List ℝ) (f : ℝ → ℝ) : pairSum x (fun _ b => f b) = x.length * (x.map f).sum := by
  unfold pairSum
  rw [sum_map_const']

lemma pairSum_prod (x : List ℝ) (f g : ℝ → ℝ) :
    pairSum x (fun a b => f a * g b) = (x.map f).sum * (x.map g).sum := by
  unfold pairSum
  rw [mul_comm (x.map f).sum, ← sum_map_mul']
  refine sum_map_congr fun a _ => ?_
  rw [sum_map_mul']; ring

lemma pairSum_sq (u : List ℝ) :
    pairSum u (fun a b => (a - b) ^ 2) = 2 * u.length * (u.map fun a => a ^ 2).sum - 2 * u.sum ^ 2 := by
  have : pairSum u (fun a b => (a - b) ^ 2)
      = pairSum u (fun a b => (a ^ 2 + b ^ 2) + (-2) * (a * b)) := pairSum_congr fun a _ b _ => by ring
  rw [this, pairSum_add, pairSum_add, pairSum_mul, pairSum_fst, pairSum_snd, pairSum_prod]
  simp only [List.map_id']
  ring

lemma mapIdx_sum_cons (f : ℕ → ℝ → ℝ) (a : ℝ) (l : List ℝ) :
    ((a :: l).mapIdx f).sum = f 0 a + (l.mapIdx fun i v => f (i + 1) v).sum := by
  rw [List.mapIdx_cons, List.sum_cons]

lemma mapIdx_sum_congr {f g : ℕ → ℝ → ℝ} : ∀ {l : List ℝ}, (∀ i, i < l.length → ∀ v, f i v = g i v) →
    (l.mapIdx f).sum = (l.mapIdx g).sum
  | [], _ => rfl
  | a :: l, h => by
    rw [mapIdx_sum_cons, mapIdx_sum_cons, h 0 (by simp),
      mapIdx_sum_congr fun i hi v => h (i + 1) (by simpa using hi) v]

lemma mapIdx_sum_add (f g : ℕ → ℝ → ℝ) : ∀ (l : List ℝ),
    (l.mapIdx fun i v => f i v + g i v).sum = (l.mapIdx f).sum + (l.mapIdx g).sum
  | [] => by simp
  | a :: l => by
    rw [mapIdx_sum_cons, mapIdx_sum_cons, mapIdx_sum_cons, mapIdx_sum_add (fun i => f (i + 1))]; ring

lemma mapIdx_sum_mul (c : ℝ) (f : ℕ → ℝ → ℝ) : ∀ (l : List ℝ) ,
    (l.mapIdx fun i v => c * f i v).sum = c * (l.mapIdx f).sum
  | [] => by simp
  | a :: l => by rw [mapIdx_sum_cons, mapIdx_sum_cons, mapIdx_sum_mul c (fun i => f (i + 1))]; ring

lemma mapIdx_sum_val (f : ℝ → ℝ) : ∀ (l : List ℝ), (l.mapIdx fun _ v => f v).sum = (l.map f).sum
  | [] => by simp
  | a :: l => by rw [mapIdx_sum_cons, mapIdx_sum_val f l]; simp

/-- For a sorted list the sum of all distances is a weighted sum of the values. -/
lemma pairSum_abs {u : List ℝ} (hu : u.Pairwise (· ≤ ·)) :
    pairSum u (fun a b => |a - b|)
      = 2 * (u.mapIdx fun i v => (2 * (i : ℝ) + 1 - u.length) * v).sum := by
  induction u with
  | nil => simp [pairSum]
  | cons a l ih =>
    rw [List.pairwise_cons] at hu
    have ih := ih hu.2
    have h1 : (l.map fun b => |a - b|).sum = l.sum - l.length * a := by
      rw [sum_map_congr (g := fun b => b + (-a)) fun b hb => by
        rw [abs_sub_comm, abs_of_nonneg (by linarith [hu.1 b hb])]; ring]
      rw [sum_map_add', sum_map_const', List.map_id']; ring
    have h2 : (l.map fun b => |b - a|).sum = l.sum - l.length * a := by
      rw [← h1]; exact sum_map_congr fun b _ => abs_sub_comm _ _
    have h3 : pairSum (a :: l) (fun a b => |a - b|)
        = pairSum l (fun a b => |a - b|) + 2 * (l.sum - l.length * a) := by
      unfold pairSum
      simp only [List.map_cons, List.sum_cons, sub_self, abs_zero, zero_add]
      rw [sum_map_add', h1, h2]; ring
    rw [h3, ih, mapIdx_sum_cons]
    have h4 : (l.mapIdx fun i v => (2 * ((i + 1 : ℕ) : ℝ) + 1 - (a :: l).length) * v).sum
        = (l.mapIdx fun i v => (2 * (i : ℝ) + 1 - l.length) * v).sum + l.sum := by
      have hs : l.sum = (l.mapIdx fun _ v => v).sum := by rw [mapIdx_sum_val (fun v => v)]; simp
      conv_rhs => rw [hs]
      rw [← mapIdx_sum_add]
      refine mapIdx_sum_congr fun i _ v => ?_
      rw [List.length_cons]; push_cast; ring
    rw [h4, List.length_cons]
    push_cast; ring

lemma mapIdx_index_sum : ∀ (l : List ℝ) (c : ℝ),
    (l.mapIdx fun i _ => (i : ℝ) + c).sum = l.length * (l.length - 1) / 2 + l.length * c
  | [], c => by simp
  | a :: l, c => by
    rw [mapIdx_sum_cons]
    have := mapIdx_index_sum l (c + 1)
    rw [mapIdx_sum_congr (g := fun i _ => (i : ℝ) + (c + 1)) fun i _ v => by push_cast; ring, this,
      List.length_cons]
    push_cast; ring

lemma mapIdx_index_sq : ∀ (l : List ℝ) (c : ℝ),
    (l.mapIdx fun i _ => ((i : ℝ) + c) ^ 2).sum
      = l.length * (l.length - 1) * (2 * l.length - 1) / 6 + c * (l.length * (l.length - 1)) + l.length * c ^ 2
  | [], c => by simp
  | a :: l, c => by
    rw [mapIdx_sum_cons]
    have := mapIdx_index_sq l (c + 1)
    rw [mapIdx_sum_congr (g := fun i _ => ((i : ℝ) + (c + 1)) ^ 2) fun i _ v => by push_cast; ring, this,
      List.length_cons]
    push_cast; ring

lemma watson_kernel_sum {x : List ℝ} (hne : x ≠ []) :
    watsonU2One x = pairSum x (fun a b => watsonKernel ((a - b) / (2 * π))) / x.length := by
  set s := sortR x with hs
  set u := s.map fun v => v / (2 * π) with hu
  have hπ := two_pi_pos'
  have hlen : u.length = x.length := by rw [hu, List.length_map, hs, sortR_length]
  have hn : (x.length : ℝ) ≠ 0 := by simpa using hne
  have hsort : u.Pairwise (· ≤ ·) := by
    rw [hu, List.pairwise_map]
    exact (sortR_sorted x).imp fun h => div_le_div_of_nonneg_right h hπ.le
  have h1 : pairSum x (fun a b => watsonKernel ((a - b) / (2 * π))) = pairSum u (fun a b => watsonKernel (a - b)) := by
    rw [← pairSum_perm (sortR_perm x), hu, pairSum_map]
    exact pairSum_congr fun a _ b _ => by rw [sub_div]
  have h2 : pairSum u (fun a b => watsonKernel (a - b))
      = (1 / 2) * (2 * u.length * (u.map fun a => a ^ 2).sum - 2 * u.sum ^ 2)
        + (-1 / 2) * (2 * (u.mapIdx fun i v => (2 * (i : ℝ) + 1 - u.length) * v).sum)
        + u.length ^ 2 * (1 / 12) := by
    rw [← pairSum_sq, ← pairSum_abs hsort, ← pairSum_mul, ← pairSum_mul, ← pairSum_const, ← pairSum_add,
      ← pairSum_add]
    exact pairSum_congr fun a _ b _ => by unfold watsonKernel; ring
  rw [h1, h2]
  unfold watsonU2One
  simp only [← hs, ← hu, ← hlen]
  have hn' : (u.length : ℝ) ≠ 0 := by rw [hlen]; exact hn
  set n : ℝ := (u.length : ℝ) with hnd
  have h3 : (u.mapIdx fun i v => ((v - ((i : ℝ) + 1 - 0.5) / n) - (u.sum / n - 0.5)) ^ 2).sum
      = (u.mapIdx fun i v => (((v ^ 2 + (-2 * (u.sum / n)) * v) + ((-1 / n) * ((2 * (i : ℝ) + 1 - n) * v)))
          + (((1 / n ^ 2) * ((i : ℝ) + 1 / 2) ^ 2) + (2 * (u.sum / n - 1 / 2) / n) * ((i : ℝ) + 1 / 2)))
          + (u.sum / n - 1 / 2) ^ 2).sum := by
    refine mapIdx_sum_congr fun i _ v => ?_
    field_simp
    ring
  rw [h3]
  rw [mapIdx_sum_add, mapIdx_sum_add, mapIdx_sum_add, mapIdx_sum_add, mapIdx_sum_add, mapIdx_sum_mul,
    mapIdx_sum_mul, mapIdx_sum_mul, mapIdx_sum_mul, mapIdx_index_sum, mapIdx_index_sq,
    mapIdx_sum_val (fun v => v ^ 2), mapIdx_sum_val (fun v => v), mapIdx_sum_val (fun _ => (u.sum / n - 1 / 2) ^ 2),
    sum_map_const', List.map_id', ← hnd]
  field_simp
  ring

/-- **C42.** For a non-empty sample the statistic is the average, over all ordered pairs of
observations, of the kernel `d²/2 - |d|/2 + 1/12` of their difference in turns, times `n`. With one
"simulation" the p value is the alternating series. -/
theorem C42_watson (x : List ℝ) (B : ℤ) (draws : List (List ℝ)) (hB : 1 ≤ B) (hne : x ≠ []) :
    ∃ U2 pval, watsonTest x B draws = .ok (U2, pval) ∧
      U2 = pairSum x (fun a b => watsonKernel ((a - b) / (2 * π))) / x.length ∧
      (B = 1 → pval = 2 * ∑ j ∈ Finset.range 50,
        (-1 : ℝ) ^ j * exp (-2 * ((j : ℝ) + 1) ^ 2 * π ^ 2 * U2)) := by
  have hl : x.length ≠ 0 := by simpa using hne
  unfold watsonTest
  rw [if_neg (by omega), if_neg hl]
  simp only
  by_cases hB1 : B = 1
  · rw [if_pos hB1]; exact ⟨_, _, rfl, watson_kernel_sum hne, fun _ =>
      congrArg (2 * ·) (list_sum_range _ 50)⟩
  · rw [if_neg hB1]; exact ⟨_, _, rfl, watson_kernel_sum hne, fun h => absurd h hB1⟩

lemma watsonTest_fst {x : List ℝ} {B : ℤ} {draws : List (List ℝ)} {U2 pval : ℝ}
    (h : watsonTest x B draws = .ok (U2, pval)) : x ≠ [] ∧ U2 = watsonU2One x := by
  unfold watsonTest at h
  simp only at h
  split_ifs at h with h0 h1
  all_goals
    refine ⟨by simpa using h1, ?_⟩
    simp only [Except.ok.injEq, Prod.mk.injEq] at h; exact h.1.symm

/-- The unit step at `c`. -/
noncomputable def step (c θ : ℝ) : ℝ := if c ≤ θ then 1 else 0

lemma step_mono (c : ℝ) : Monotone (step c) := by
  intro a b hab
  unfold step
  split_ifs with h1 h2
  · exact le_rfl
  · exact absurd (h1.trans hab) h2
  · norm_num
  · exact le_rfl

lemma step_int (c a b : ℝ) : IntervalIntegrable (step c) MeasureTheory.volume a b :=
  (step_mono c).intervalIntegrable

lemma step_mul_int (c a b : ℝ) : IntervalIntegrable (fun θ => step c θ * θ) MeasureTheory.volume a b :=
  (step_int c a b).mul_continuousOn continuousOn_id

lemma integral_step_mul {c T : ℝ} (h0 : 0 ≤ c) (h1 : c ≤ T) {f : ℝ → ℝ} (hf : Continuous f) :
    ∫ θ in (0 : ℝ)..T, step c θ * f θ = ∫ θ in c..T, f θ := by
  have hi : ∀ a b, IntervalIntegrable (fun θ => step c θ * f θ) MeasureTheory.volume a b := fun a b =>
    (step_int c a b).mul_continuousOn hf.continuousOn
  rw [← intervalIntegral.integral_add_adjacent_intervals (hi 0 c) (hi c T)]
  have e1 : ∫ θ in (0 : ℝ)..c, step c θ * f θ = ∫ θ in (0 : ℝ)..c, (0 : ℝ) :=
    intervalIntegral.integral_congr_Ioo_of_le h0 fun θ hθ => by
      simp only [step]; rw [if_neg (not_le.2 hθ.2), zero_mul]
  have e2 : ∫ θ in c..T, step c θ * f θ = ∫ θ in c..T, f θ :=
    intervalIntegral.integral_congr_Ioo_of_le h1 fun θ hθ => by
      simp only [step]; rw [if_pos hθ.1.le, one_mul]
  rw [e1, e2]; simp

lemma integral_step {c T : ℝ} (h0 : 0 ≤ c) (h1 : c ≤ T) : ∫ θ in (0 : ℝ)..T, step c θ = T - c := by
  have := integral_step_mul h0 h1 (f := fun _ => 1) continuous_const
  simpa using this

lemma integral_step_id {c T : ℝ} (h0 : 0 ≤ c) (h1 : c ≤ T) :
    ∫ θ in (0 : ℝ)..T, step c θ * θ = (T ^ 2 - c ^ 2) / 2 := by
  have := integral_step_mul h0 h1 (f := fun θ => θ) continuous_id
  rw [this, integral_id]

/-- One observation's part of `F(θ) - θ/2π`. -/
noncomputable def part (a θ : ℝ) : ℝ := step a θ - θ / (2 * π)

lemma part_int (a c d : ℝ) : IntervalIntegrable (part a) MeasureTheory.volume c d :=
  (step_int a c d).sub (Continuous.intervalIntegrable (by fun_prop) _ _)

lemma part_mul_eq (a b : ℝ) : (fun θ => part a θ * part b θ) = fun θ =>
    step (max a b) θ - (1 / (2 * π)) * (step a θ * θ) - (1 / (2 * π)) * (step b θ * θ)
      + (1 / (2 * π)) ^ 2 * θ ^ 2 := by
  funext θ
  have : step (max a b) θ = step a θ * step b θ := by
    unfold step
    simp only [max_le_iff]
    by_cases h1 : a ≤ θ <;> by_cases h2 : b ≤ θ <;> simp [h1, h2]
  rw [this]; unfold part; ring

lemma part_mul_int (a b c d : ℝ) : IntervalIntegrable (fun θ => part a θ * part b θ) MeasureTheory.volume c d := by
  rw [part_mul_eq]
  exact (((step_int _ c d).sub ((step_mul_int a c d).const_mul _)).sub ((step_mul_int b c d).const_mul _)).add
    (Continuous.intervalIntegrable (by fun_prop) _ _)

lemma integral_part {a : ℝ} (ha : 0 ≤ a ∧ a < 2 * π) :
    ∫ θ in (0 : ℝ)..2 * π, part a θ = 2 * π * (1 / 2 - a / (2 * π)) := by
  unfold part
  rw [intervalIntegral.integral_sub (step_int _ _ _) (Continuous.intervalIntegrable (by fun_prop) _ _),
    integral_step ha.1 ha.2.le, intervalIntegral.integral_div, integral_id]
  have := two_pi_pos'.ne'
  field_simp; ring

lemma integral_part_mul {a b : ℝ} (ha : 0 ≤ a ∧ a < 2 * π) (hb : 0 ≤ b ∧ b < 2 * π) :
    ∫ θ in (0 : ℝ)..2 * π, part a θ * part b θ
      = 2 * π * (1 / 3 - max a b / (2 * π) + ((a / (2 * π)) ^ 2 + (b / (2 * π)) ^ 2) / 2) := by
  rw [part_mul_eq]
  have i1 := step_int (max a b) 0 (2 * π)
  have i2 := (step_mul_int a 0 (2 * π)).const_mul (1 / (2 * π))
  have i3 := (step_mul_int b 0 (2 * π)).const_mul (1 / (2 * π))
  have i4 : IntervalIntegrable (fun θ : ℝ => (1 / (2 * π)) ^ 2 * θ ^ 2) MeasureTheory.volume 0 (2 * π) :=
    Continuous.intervalIntegrable (by fun_prop) _ _
  rw [intervalIntegral.integral_add ((i1.sub i2).sub i3) i4, intervalIntegral.integral_sub (i1.sub i2) i3,
    intervalIntegral.integral_sub i1 i2, integral_step (le_max_of_le_left ha.1) (max_le ha.2.le hb.2.le),
    intervalIntegral.integral_const_mul, intervalIntegral.integral_const_mul,
    intervalIntegral.integral_const_mul, integral_step_id ha.1 ha.2.le, integral_step_id hb.1 hb.2.le,
    integral_pow]
  have := two_pi_pos'.ne'
  have hπ := Real.pi_ne_zero
  field_simp; ring

lemma integral_list {α : Type} (l : List α) (f : α → ℝ → ℝ) (c d : ℝ)
    (hf : ∀ a ∈ l, IntervalIntegrable (f a) MeasureTheory.volume c d) :
    IntervalIntegrable (fun θ => (l.map fun a => f a θ).sum) MeasureTheory.volume c d ∧
    ∫ θ in c..d, (l.map fun a => f a θ).sum = (l.map fun a => ∫ θ in c..d, f a θ).sum := by
  induction l with
  | nil => simp
  | cons a l ih =>
    obtain ⟨h1, h2⟩ := ih fun a ha => hf a (by simp [ha])
    simp only [List.map_cons, List.sum_cons]
    exact ⟨(hf a (by simp)).add h1, by rw [intervalIntegral.integral_add (hf a (by simp)) h1, h2]⟩

lemma excess_eq (x : List ℝ) (hne : x ≠ []) (θ : ℝ) :
    ecdf x θ - θ / (2 * π) = (x.map fun a => part a θ).sum / x.length := by
  have hn : (x.length : ℝ) ≠ 0 := by simpa using hne
  have h1 : (countLe x θ : ℝ) = (x.map fun a => step a θ).sum := by
    unfold countLe step
    clear hne hn
    induction x with
    | nil => simp
    | cons a x ih =>
      rw [List.countP_cons, List.map_cons, List.sum_cons, ← ih]
      by_cases h : a ≤ θ <;> simp [h]; ring
  have h2 : (x.map fun a => part a θ).sum = (x.map fun a => step a θ).sum - x.length * (θ / (2 * π)) := by
    rw [sum_map_congr (g := fun a => step a θ + -(θ / (2 * π))) fun a _ => by unfold part; ring, sum_map_add',
      sum_map_const']; ring
  unfold ecdf
  rw [h2, h1]; field_simp

/-- The statistic is `n` times the variance, over a uniformly distributed direction `θ`, of the
difference between the empirical and the uniform distribution functions. -/
theorem C42_watson_variance (x : List ℝ) (B : ℤ) (draws : List (List ℝ))
    (hx : ∀ a ∈ x, 0 ≤ a ∧ a < 2 * π) (U2 pval : ℝ) (h : watsonTest x B draws = .ok (U2, pval)) :
    U2 = x.length * (1 / (2 * π) * (∫ θ in (0 : ℝ)..2 * π, (ecdf x θ - θ / (2 * π)) ^ 2)
      - (1 / (2 * π) * ∫ θ in (0 : ℝ)..2 * π, (ecdf x θ - θ / (2 * π))) ^ 2) := by
  obtain ⟨hne, rfl⟩ := watsonTest_fst h
  have hn : (x.length : ℝ) ≠ 0 := by simpa using hne
  have hπ := two_pi_pos'.ne'
  have hI1 : ∫ θ in (0 : ℝ)..2 * π, (ecdf x θ - θ / (2 * π))
      = 2 * π * (x.map fun a => 1 / 2 - a / (2 * π)).sum / x.length := by
    simp_rw [excess_eq x hne]
    rw [intervalIntegral.integral_div, (integral_list x part 0 (2 * π) fun a _ => part_int a _ _).2,
      sum_map_congr fun a ha => integral_part (hx a ha), sum_map_mul']
  have hI2 : ∫ θ in (0 : ℝ)..2 * π, (ecdf x θ - θ / (2 * π)) ^ 2
      = 2 * π * pairSum x (fun a b => 1 / 3 - max a b / (2 * π) + ((a / (2 * π)) ^ 2 + (b / (2 * π)) ^ 2) / 2)
        / x.length ^ 2 := by
    have : (fun θ => (ecdf x θ - θ / (2 * π)) ^ 2)
        = fun θ => (x.map fun a => (x.map fun b => part a θ * part b θ).sum).sum / x.length ^ 2 := by
      funext θ
      have := pairSum_prod x (fun a => part a θ) (fun a => part a θ)
      unfold pairSum at this
      rw [excess_eq x hne, this]; ring
    rw [this, intervalIntegral.integral_div,
      (integral_list x (fun a θ => (x.map fun b => part a θ * part b θ).sum) 0 (2 * π) fun a _ =>
        (integral_list x (fun b θ => part a θ * part b θ) 0 (2 * π) fun b _ => part_mul_int a b _ _).1).2]
    congr 1
    rw [← pairSum_mul]
    unfold pairSum
    refine sum_map_congr fun a ha => ?_
    rw [(integral_list x (fun b θ => part a θ * part b θ) 0 (2 * π) fun b _ => part_mul_int a b _ _).2]
    exact sum_map_congr fun b hb => integral_part_mul (hx a ha) (hx b hb)
  rw [hI1, hI2, watson_kernel_sum hne]
  have hsq : (x.map fun a => 1 / 2 - a / (2 * π)).sum ^ 2
      = pairSum x fun a b => (1 / 2 - a / (2 * π)) * (1 / 2 - b / (2 * π)) := by
    rw [pairSum_prod]; ring
  have hk : pairSum x (fun a b => watsonKernel ((a - b) / (2 * π)))
      = pairSum x (fun a b => 1 / 3 - max a b / (2 * π) + ((a / (2 * π)) ^ 2 + (b / (2 * π)) ^ 2) / 2)
        + (-1) * pairSum x fun a b => (1 / 2 - a / (2 * π)) * (1 / 2 - b / (2 * π)) := by
    rw [← pairSum_mul, ← pairSum_add]
    refine pairSum_congr fun a _ b _ => ?_
    unfold watsonKernel
    have hm : max a b = (a + b + |a - b|) / 2 := by
      rcases le_total a b with h | h
      · rw [max_eq_right h, abs_of_nonpos (by linarith)]; ring
      · rw [max_eq_left h, abs_of_nonneg (by linarith)]; ring
    rw [hm, abs_div, abs_of_pos two_pi_pos']
    field_simp; ring
  have : (2 * π * (x.map fun a => 1 / 2 - a / (2 * π)).sum / x.length) = 2 * π * ((x.map fun a => 1 / 2 - a / (2 * π)).sum / x.length) := by ring
  rw [this, hk, ← hsq]
  set S := (x.map fun a => 1 / 2 - a / (2 * π)).sum
  field_simp
  ring

/-- The statistic lies between `1/(12 n)` and `n/12` for data in `[0, 2π)`. -/
theorem C42_watson_range (x : List ℝ) (B : ℤ) (draws : List (List ℝ))
    (hx : ∀ a ∈ x, 0 ≤ a ∧ a < 2 * π) (U2 pval : ℝ) (h : watsonTest x B draws = .ok (U2, pval)) :
    1 / (12 * (x.length : ℝ)) ≤ U2 ∧ U2 ≤ x.length / 12 := by
  obtain ⟨hne, rfl⟩ := watsonTest_fst h
  have hn : (0 : ℝ) < x.length := by exact_mod_cast List.length_pos_iff.2 hne
  have hπ := two_pi_pos'
  constructor
  · unfold watsonU2One
    simp only
    have : 0 ≤ (List.mapIdx (fun i v => (v - ((i : ℝ) + 1 - 0.5) / x.length
        - ((List.map (fun v => v / (2 * π)) (sortR x)).sum / x.length - 0.5)) ^ 2)
        (List.map (fun v => v / (2 * π)) (sortR x))).sum := by
      apply List.sum_nonneg
      intro y hy
      rw [List.mem_mapIdx] at hy
      obtain ⟨i, hi, rfl⟩ := hy
      positivity
    linarith
  · rw [watson_kernel_sum hne, div_le_iff₀ hn]
    have : pairSum x (fun a b => watsonKernel ((a - b) / (2 * π))) ≤ pairSum x (fun _ _ => 1 / 12) := by
      unfold pairSum
      apply List.sum_le_sum
      intro a ha
      apply List.sum_le_sum
      intro b hb
      have h1 := hx a ha
      have h2 := hx b hb
      simp only [watsonKernel]
      have h3 : |(a - b) / (2 * π)| ≤ 1 := by
        rw [abs_div, abs_of_pos hπ, div_le_one hπ, abs_le]
        constructor <;> linarith
      have h4 : ((a - b) / (2 * π)) ^ 2 = |(a - b) / (2 * π)| ^ 2 := (sq_abs _).symm
      have h5 := abs_nonneg ((a - b) / (2 * π))
      rw [h4]; nlinarith
    rw [pairSum_const] at this
    linarith

lemma watsonKernel_rot {t a b : ℝ} (ha : 0 ≤ a ∧ a < 2 * π) (hb : 0 ≤ b ∧ b < 2 * π)  :
    watsonKernel ((rot t a - rot t b) / (2 * π)) = watsonKernel ((a - b) / (2 * π)) := by
  have hπ := two_pi_pos'
  unfold rot watsonKernel
  split_ifs with h1 h2 h2
  · congr 4 <;> ring_nf
  · have e : (a + t - (b + t - 2 * π)) / (2 * π) = (a - b) / (2 * π) + 1 := by field_simp; ring
    have h3 : (a - b) / (2 * π) ≤ 0 := by
      rw [div_nonpos_iff]; right; exact ⟨by linarith, hπ.le⟩
    have h4 : -1 ≤ (a - b) / (2 * π) := by rw [le_div_iff₀ hπ]; linarith
    rw [e, abs_of_nonpos h3, abs_of_nonneg (by linarith)]
    ring
  · have e : (a + t - 2 * π - (b + t)) / (2 * π) = (a - b) / (2 * π) - 1 := by field_simp; ring
    have h3 : 0 ≤ (a - b) / (2 * π) := by
      rw [div_nonneg_iff]; left; exact ⟨by linarith, hπ.le⟩
    have h4 : (a - b) / (2 * π) ≤ 1 := by rw [div_le_iff₀ hπ]; linarith
    rw [e, abs_of_nonneg h3, abs_of_nonpos (by linarith)]
    ring
  · congr 4 <;> ring_nf

/-- The result depends only on which directions were observed: not on their order, and not on the
choice of the zero direction. -/
theorem C42_watson_rotate (x x' : List ℝ) (t : ℝ) (B : ℤ) (draws : List (List ℝ))
    (hx : ∀ a ∈ x, 0 ≤ a ∧ a < 2 * π) (hr : IsRotated t x x') :
    watsonTest x' B draws = watsonTest x B draws := by
  obtain ⟨hs, hp⟩ := isRotated_rot hr hx
  have hlen : x'.length = x.length := by rw [hp.length_eq, List.length_map]
  unfold watsonTest
  rw [hlen]
  by_cases hl : x.length = 0
  · simp [hl]
  · have hne : x ≠ [] := by simpa using hl
    have hne' : x' ≠ [] := by rw [← List.length_pos_iff, hlen]; omega
    suffices watsonU2One x' = watsonU2One x by rw [this]
    rw [watson_kernel_sum hne, watson_kernel_sum hne', pairSum_perm hp, pairSum_map, hlen]
    congr 1
    exact pairSum_congr fun a ha b hb => watsonKernel_rot (hx a ha) (hx b hb)

/-- Bad simulation counts and empty samples are refused. -/
theorem C42_watson_refused (x : List ℝ) (B : ℤ) (draws : List (List ℝ)) (h : B ≤ 0 ∨ x = []) :
    watsonTest x B draws = .error .valueError := by
  unfold watsonTest
  by_cases hB : B ≤ 0
  · rw [if_pos hB]
  · have hl : x.length = 0 := by
      rcases h with h | h
      · exact absurd h hB
      · simp [h]
    rw [if_neg hB, if_pos hl]

/-- **C31 for Watson's test.** -/
theorem C31_watson (x : List ℝ) (B : ℤ) (draws : List (List ℝ)) (hB : 2 ≤ B)
    (hlen : (draws.length : ℤ) = B) (hd : ∀ u ∈ draws, u ≠ []) (U2 pval : ℝ)
    (h : watsonTest x B draws = .ok (U2, pval)) :
    ∃ (Us : List ℝ) (k : ℕ),
      List.Forall₂ (fun u v => ∃ q, watsonTest u 1 [] = .ok (v, q)) draws Us ∧
      1 ≤ k ∧ (k : ℤ) ≤ B + 1 ∧ k = (Us.countP fun v => decide (U2 ≤ v)) + 1 ∧
      pval = (k : ℝ) / (B + 1) := by
  obtain ⟨hne, rfl⟩ := watsonTest_fst h
  unfold watsonTest at h
  rw [if_neg (by omega), if_neg (by simpa using hne)] at h
  simp only at h
  rw [if_neg (by omega)] at h
  simp only [Except.ok.injEq, Prod.mk.injEq, true_and] at h
  obtain ⟨k, hk1, hk2, hk, he⟩ := mcPvalue_eq (draws.map watsonU2One) (watsonU2One x)
  rw [List.length_map] at hk2
  refine ⟨draws.map watsonU2One, k, ?_, hk1, by omega, hk, ?_⟩
  · rw [List.forall₂_map_right_iff, List.forall₂_same]
    intro u hu
    obtain ⟨U, p, h1, -⟩ := C42_watson u 1 [] le_rfl (hd u hu)
    exact ⟨p, by rw [h1, (watsonTest_fst h1).2]⟩
  · have : ((draws.length : ℤ) : ℝ) = (B : ℝ) := by rw [hlen]
    rw [← h, he, List.length_map, ← this, Int.cast_natCast]

/-- Two opposite observations: the smallest possible value for `n = 2`. -/
example : ∃ p, watsonTest [0, π] 1 [] = .ok (1 / 24, p) := by
  obtain ⟨U, p, h, hU, -⟩ := C42_watson [0, π] 1 [] le_rfl (by simp)
  refine ⟨p, ?_⟩
  rw [h, hU]
  have hπ := Real.pi_pos
  have e1 : (0 - π) / (2 * π) = -(1 / 2) := by field_simp; ring
  have e2 : (π - 0) / (2 * π) = 1 / 2 := by field_simp; ring
  have e3 : |(-(1 / 2) : ℝ)| = 1 / 2 := by rw [abs_neg, abs_of_pos (by norm_num)]
  have e4 : |(1 / 2 : ℝ)| = 1 / 2 := abs_of_pos (by norm_num)
  simp only [pairSum, watsonKernel, List.map_cons, List.map_nil, List.sum_cons, List.sum_nil, sub_self,
    zero_div, abs_zero, e1, e2, e3, e4, List.length_cons, List.length_nil]
  norm_num

end Verif.Props
