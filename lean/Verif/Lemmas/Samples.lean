import Verif.Model.HypMulti
import Verif.Lemmas.Descriptive
import Verif.Lemmas.Lists

/-! # Helper lemmas: coerced samples -/

set_option autoImplicit false

namespace Verif

open Verif.Spec Real

lemma expSum_ones (l : List ℝ) : expSum l (ones l) 1 = resultant l := by
  unfold expSum resultant ones
  induction l with
  | nil => simp
  | cons a l ih => simp at ih ⊢; exact ih

lemma resultant_append (a b : List ℝ) : resultant (a ++ b) = resultant a + resultant b := by
  simp [resultant]

@[simp] lemma resultant_nil : resultant [] = 0 := rfl

@[simp] lemma resultant_cons (a : ℝ) (l : List ℝ) :
    resultant (a :: l) = Complex.exp ((a : ℂ) * Complex.I) + resultant l := by simp [resultant]

lemma resultant_flatten (gs : List (List ℝ)) : resultant gs.flatten = (gs.map resultant).sum := by
  induction gs with
  | nil => simp
  | cons g gs ih => simp [resultant_append, ih]

lemma resultant_perm {a b : List ℝ} (h : a.Perm b) : resultant a = resultant b :=
  (h.map _).sum_eq

lemma norm_resultant_le (l : List ℝ) : ‖resultant l‖ ≤ l.length := by
  induction l with
  | nil => simp
  | cons a l ih =>
    rw [resultant_cons]
    refine (norm_add_le _ _).trans ?_
    rw [Complex.norm_exp_ofReal_mul_I, List.length_cons]
    push_cast; linarith

lemma norm_sum_le_sum (l : List ℂ) : ‖l.sum‖ ≤ (l.map fun z => ‖z‖).sum := by
  induction l with
  | nil => simp
  | cons a l ih => simp only [List.sum_cons, List.map_cons]; exact (norm_add_le _ _).trans (by linarith)

lemma norm_resultant_flatten_le (gs : List (List ℝ)) :
    ‖resultant gs.flatten‖ ≤ (gs.map fun g => ‖resultant g‖).sum := by
  rw [resultant_flatten]
  refine (norm_sum_le_sum _).trans ?_
  rw [List.map_map]; rfl

lemma resultant_rotate {a b : List ℝ} (t : ℝ) (h : List.Forall₂ (fun a b => SameDir b (a + t)) a b) :
    resultant b = Complex.exp ((t : ℂ) * Complex.I) * resultant a := by
  induction h with
  | nil => simp
  | @cons x y _ _ hxy _ ih =>
    rw [resultant_cons, resultant_cons, ih, (exp_eq_iff_sameDir y (x + t)).2 hxy]
    push_cast
    rw [add_mul, Complex.exp_add]; ring

lemma norm_resultant_rotate {a b : List ℝ} (t : ℝ)
    (h : List.Forall₂ (fun a b => SameDir b (a + t)) a b) : ‖resultant b‖ = ‖resultant a‖ := by
  rw [resultant_rotate t h, norm_mul, Complex.norm_exp_ofReal_mul_I, one_mul]

lemma circR_ones (l : List ℝ) (h : l ≠ []) : circR l (ones l) = some (‖resultant l‖ / l.length) := by
  have hl : (l.length : ℝ) ≠ 0 := by
    have := List.length_pos_iff.2 h
    positivity
  rw [circR_eq, if_neg (by rw [sum_ones]; exact hl), moment, expSum_ones, sum_ones, norm_div]
  simp

/-- What holds of every coerced sample. -/
structure CSample.Valid (s : CSample) : Prop where
  len : s.w.length = s.alpha.length
  n_eq : s.n = s.expand.length
  n_pos : 0 < s.n
  r_eq : s.r = ‖resultant s.expand‖ / s.n

lemma CSample.expand_eq (s : CSample) : s.expand = Spec.expand s.alpha s.w := rfl

lemma CSample.Valid.R_eq {s : CSample} (h : s.Valid) : s.R = ‖resultant s.expand‖ := by
  have : (0 : ℝ) < s.n := by exact_mod_cast h.n_pos
  rw [CSample.R, h.r_eq]; field_simp

lemma length_expand (alpha : List ℝ) (ks : List ℕ) (h : alpha.length = ks.length) :
    (expand alpha ks).length = ks.sum := by
  have := sum_expand alpha ks h
  rw [sum_ones] at this
  have h2 : (ks.map fun k : ℕ => (k : ℝ)).sum = ((ks.sum : ℕ) : ℝ) := by
    induction ks with
    | nil => simp
    | cons => simp
  rw [h2] at this
  exact_mod_cast this

lemma sum_map_natCast (ks : List ℕ) : (ks.map fun k : ℕ => (k : ℝ)).sum = ((ks.sum : ℕ) : ℝ) := by
  simp

lemma moment_weights (alpha : List ℝ) (ks : List ℕ) (h : alpha.length = ks.length) :
    ‖moment alpha (ks.map fun k : ℕ => (k : ℝ)) 1‖ = ‖resultant (expand alpha ks)‖ / ks.sum := by
  rw [← moment_expand _ _ h, moment, expSum_ones, sum_expand _ _ h, sum_map_natCast, norm_div,
    Complex.norm_real, Real.norm_eq_abs, abs_of_nonneg (Nat.cast_nonneg _)]

lemma coerceSample_ok {alpha w : List ℝ} {s : CSample} (h : coerceSample alpha w = .ok s) :
    s.Valid ∧ s.alpha = alpha ∧ IsExpansion alpha w s.expand := by
  unfold coerceSample at h
  split_ifs at h with h1 h2 h3 h4
  simp only at h
  split_ifs at h with h5
  rw [circR_eq] at h
  have hlen : alpha.length = (w.map fun x => (roundEven x).toNat).length := by
    rw [List.length_map]; exact (not_not.1 h2).symm
  set ks := w.map fun x => (roundEven x).toNat with hks
  rw [if_neg (by rw [sum_map_natCast]; exact_mod_cast h5)] at h
  simp only [Except.ok.injEq] at h
  have hv : s.Valid := by
    subst h
    refine ⟨hlen.symm, (length_expand _ _ hlen).symm, Nat.pos_of_ne_zero h5, ?_⟩
    rw [moment_weights _ _ hlen]
    rfl
  refine ⟨hv, by rw [← h], ks, hlen.symm, ?_, by rw [← h]; rfl⟩
  rw [hks, List.forall₂_map_right_iff, List.forall₂_same]
  intro x hx
  push Not at h3 h4
  have h0 := h3 x hx
  have hr := roundEven_nonneg h0
  have hcast : (((roundEven x).toNat : ℕ) : ℝ) = (roundEven x : ℝ) := by
    have := Int.toNat_of_nonneg hr
    exact_mod_cast congrArg (fun z : ℤ => (z : ℝ)) this
  have := h4 x hx
  simp only [isclose, rtolDefault, atolDefault] at this
  rw [hcast]
  rwa [abs_of_nonneg (by exact_mod_cast hr : (0 : ℝ) ≤ (roundEven x : ℝ))] at this

lemma expand_replicate_one (l : List ℝ) : expand l (List.replicate l.length 1) = l := by
  induction l with
  | nil => rfl
  | cons a l ih =>
    have : expand (a :: l) (List.replicate (l.length + 1) 1) = a :: expand l (List.replicate l.length 1) := by
      simp [expand, List.replicate_succ]
    rw [List.length_cons, this, ih]

/-- The coerced form of a plain array of angles. -/
noncomputable def plainSample (l : List ℝ) : CSample :=
  ⟨l, List.replicate l.length 1, l.length, ‖resultant l‖ / l.length⟩

@[simp] lemma plainSample_expand (l : List ℝ) : (plainSample l).expand = l := expand_replicate_one l

lemma plainSample_R (l : List ℝ) (h : l ≠ []) : (plainSample l).R = ‖resultant l‖ := by
  have hl : (0 : ℝ) < l.length := by
    have := List.length_pos_iff.2 h
    positivity
  simp only [plainSample, CSample.R]
  field_simp

lemma roundEven_one : roundEven 1 = 1 := by simpa using roundEven_intCast 1

/-- Whole-number weights, not all zero, are accepted. -/
lemma coerceSample_nat (alpha : List ℝ) (ks : List ℕ) (h : alpha ≠ []) (hl : alpha.length = ks.length)
    (hk : ks.sum ≠ 0) : coerceSample alpha (ks.map fun k : ℕ => (k : ℝ)) =
      .ok ⟨alpha, ks, ks.sum, ‖resultant (expand alpha ks)‖ / ks.sum⟩ := by
  have h0 := List.length_pos_iff.2 h
  have hcast : ∀ k : ℕ, roundEven (k : ℝ) = k := fun k => by
    have := roundEven_intCast k
    rwa [Int.cast_natCast] at this
  have hr : ((ks.map fun k : ℕ => (k : ℝ)).map fun x => (roundEven x).toNat) = ks := by
    rw [List.map_map]
    conv_rhs => rw [← List.map_id ks]
    apply List.map_congr_left
    intro k _
    simp [hcast]
  unfold coerceSample
  rw [if_neg h0.ne', if_neg (by simp [hl]), if_neg]
  · simp only [hr]
    rw [if_neg, if_neg hk, circR_eq, if_neg]
    · simp only [moment_weights _ _ hl]
    · rw [sum_map_natCast]; exact_mod_cast hk
    · rintro ⟨x, hx, hc⟩
      apply hc
      obtain ⟨k, -, rfl⟩ := List.mem_map.1 hx
      rw [hcast]
      simp only [isclose, rtolDefault, atolDefault, Int.cast_natCast, sub_self, abs_zero]
      positivity
  · rintro ⟨x, hx, hc⟩
    obtain ⟨k, -, rfl⟩ := List.mem_map.1 hx
    exact absurd hc (not_lt.2 (Nat.cast_nonneg k))

lemma coerceSample_plain (l : List ℝ) (h : l ≠ []) :
    coerceSample l (ones l) = .ok (plainSample l) := by
  have hl := List.length_pos_iff.2 h
  have hr : ((ones l).map fun x => (roundEven x).toNat) = List.replicate l.length 1 := by
    rw [ones, List.map_map, List.eq_replicate_iff]
    refine ⟨by simp, ?_⟩
    intro b hb
    obtain ⟨a, -, rfl⟩ := List.mem_map.1 hb
    simp [roundEven_one]
  have hlen : l.length = (List.replicate l.length (1 : ℕ)).length := by simp
  unfold coerceSample
  rw [if_neg hl.ne', if_neg (by simp [length_ones]), if_neg]
  · simp only [hr]
    rw [if_neg, if_neg (by simp; exact h), circR_eq, if_neg]
    · simp only [moment_weights _ _ hlen, expand_replicate_one, plainSample]
      simp
    · rw [sum_map_natCast]; simp; exact h
    · rintro ⟨x, hx, hc⟩
      apply hc
      simp only [ones, List.mem_map] at hx
      obtain ⟨a, -, rfl⟩ := hx
      rw [roundEven_one]
      simp [isclose, rtolDefault, atolDefault]
      norm_num
  · rintro ⟨x, hx, hc⟩
    simp only [ones, List.mem_map] at hx
    obtain ⟨a, -, rfl⟩ := hx
    linarith

lemma mapM_ok {α β : Type} {f : α → Except PyErr β} {l : List α} {r : List β}
    (h : l.mapM f = .ok r) : List.Forall₂ (fun a b => f a = .ok b) l r := by
  induction l generalizing r with
  | nil =>
    simp only [List.mapM_nil] at h
    cases h; exact .nil
  | cons a l ih =>
    rw [List.mapM_cons] at h
    cases ha : f a with
    | error e => rw [ha] at h; cases h
    | ok b =>
      rw [ha] at h
      cases hl : l.mapM f with
      | error e => rw [hl] at h; cases h
      | ok bs =>
        rw [hl] at h
        cases h
        exact .cons ha (ih hl)

lemma mapM_of_ok {α β : Type} {f : α → Except PyErr β} {l : List α} {r : List β}
    (h : List.Forall₂ (fun a b => f a = .ok b) l r) : l.mapM f = .ok r := by
  induction h with
  | nil => rfl
  | cons ha _ ih => rw [List.mapM_cons, ha, ih]; rfl

lemma coerceSamples_ok {samples : List (List ℝ × List ℝ)} {ss : List CSample}
    (h : coerceSamples samples = .ok ss) :
    samples ≠ [] ∧ List.Forall₂ (fun p (s : CSample) => s.Valid ∧ s.alpha = p.1 ∧
      IsExpansion p.1 p.2 s.expand) samples ss := by
  unfold coerceSamples at h
  split_ifs at h with h0
  refine ⟨by intro h; simp [h] at h0, ?_⟩
  exact (mapM_ok h).imp fun p s hp => coerceSample_ok hp

/-- A plain array of angles as an input sample. -/
noncomputable def plain (l : List ℝ) : List ℝ × List ℝ := (l, ones l)

lemma coerceSamples_plain {gs : List (List ℝ)} (hne : gs ≠ []) (h : ∀ g ∈ gs, g ≠ []) :
    coerceSamples (gs.map plain) = .ok (gs.map plainSample) := by
  unfold coerceSamples
  rw [if_neg (by simpa using hne)]
  apply mapM_of_ok
  rw [List.forall₂_map_left_iff, List.forall₂_map_right_iff, List.forall₂_same]
  intro g hg
  exact coerceSample_plain g (h g hg)

lemma coerceSamples_error {samples : List (List ℝ × List ℝ)} {e : PyErr}
    (h : coerceSamples samples = .error e) : e = .valueError := by
  unfold coerceSamples at h
  split_ifs at h with h0
  · cases h; rfl
  · clear h0
    induction samples with
    | nil => cases h
    | cons a l ih =>
      rw [List.mapM_cons] at h
      cases ha : coerceSample a.1 a.2 with
      | error e' =>
        rw [ha] at h
        cases h
        unfold coerceSample at ha
        split_ifs at ha
        · cases ha; rfl
        · cases ha; rfl
        · cases ha; rfl
        · cases ha; rfl
        · simp only at ha
          split_ifs at ha
          · cases ha; rfl
          · split at ha
            · cases ha; rfl
            · cases ha
      | ok b =>
        rw [ha] at h
        cases hl : l.mapM fun s => coerceSample s.1 s.2 with
        | error e' => rw [hl] at h; cases h; exact ih hl
        | ok bs => rw [hl] at h; cases h

lemma coerceSamples_plain_error {gs : List (List ℝ)} (h : gs = [] ∨ ∃ g ∈ gs, g = []) :
    coerceSamples (gs.map plain) = .error .valueError := by
  cases hc : coerceSamples (gs.map plain) with
  | error e => rw [coerceSamples_error hc]
  | ok ss =>
    exfalso
    obtain ⟨hne, hf⟩ := coerceSamples_ok hc
    rcases h with rfl | ⟨g, hg, rfl⟩
    · simp at hne
    · obtain ⟨s, hs, hv⟩ : ∃ s ∈ ss, s.Valid ∧ s.alpha = [] := by
        clear hc hne
        rw [List.forall₂_map_left_iff] at hf
        induction hf with
        | nil => simp at hg
        | cons hab _ ih =>
          rcases List.mem_cons.1 hg with rfl | hg
          · exact ⟨_, by simp, hab.1, hab.2.1⟩
          · obtain ⟨s, hs, hv⟩ := ih hg
            exact ⟨s, by simp [hs], hv⟩
      have h1 := hv.1.n_pos
      rw [hv.1.n_eq, CSample.expand, hv.2] at h1
      simp at h1

end Verif
