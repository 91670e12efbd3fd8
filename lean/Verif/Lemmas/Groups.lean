import Verif.Model.HypHomog
import Verif.Lemmas.Samples
import Verif.Props.Resultant

/-! Helper lemmas for tests on families of samples. -/

set_option autoImplicit false

namespace Verif

open Real Verif Verif.Spec

lemma groupR_some {g : List ℝ} (h : g ≠ []) : groupR g = some ‖resultant g‖ := by
  have hl : (g.length : ℝ) ≠ 0 := by
    have := List.length_pos_iff.2 h
    positivity
  unfold groupR
  rw [circR_ones g h, Option.map_some, div_mul_cancel₀ _ hl]

lemma groupR_nil : groupR [] = none := by
  unfold groupR
  rw [circR_eq]; simp [ones]

lemma optMapM_some {α β : Type} {f : α → Option β} {g : α → β} {l : List α}
    (h : ∀ x ∈ l, f x = some (g x)) : l.mapM f = some (l.map g) := by
  induction l with
  | nil => rfl
  | cons x l ih => rw [List.mapM_cons, h x (by simp), ih (fun y hy => h y (by simp [hy]))]; rfl

lemma optMapM_none {α β : Type} {f : α → Option β} {l : List α} {x : α} (hx : x ∈ l) (h : f x = none) :
    l.mapM f = none := by
  induction l with
  | nil => simp at hx
  | cons y l ih =>
    rw [List.mapM_cons]
    rcases List.mem_cons.1 hx with rfl | hx
    · rw [h]; rfl
    · rw [ih hx]; cases f y <;> rfl

lemma optMapM_eq_some {α β : Type} {f : α → Option β} {l : List α} {r : List β}
    (h : l.mapM f = some r) : List.Forall₂ (fun x y => f x = some y) l r := by
  induction l generalizing r with
  | nil => cases h; exact List.Forall₂.nil
  | cons x l ih =>
    rw [List.mapM_cons] at h
    cases hf : f x with
    | none => rw [hf] at h; cases h
    | some y =>
      cases hl : l.mapM f with
      | none => rw [hf, hl] at h; cases h
      | some ys =>
        rw [hf, hl] at h
        cases h
        exact List.Forall₂.cons hf (ih hl)

lemma mapM_groupR {gs : List (List ℝ)} (h : ∀ g ∈ gs, g ≠ []) :
    gs.mapM groupR = some (gs.map fun g => ‖resultant g‖) :=
  optMapM_some fun g hg => groupR_some (h g hg)

/-- A sample has the largest possible resultant exactly when all its observations agree. -/
lemma norm_resultant_eq_length_iff (l : List ℝ) :
    ‖resultant l‖ = l.length ↔ ∃ m, ∀ x ∈ l, SameDir x m := by
  by_cases hl : l = []
  · subst hl; simp [resultant]
  have hpos : (0 : ℝ) < l.length := by exact_mod_cast List.length_pos_iff.2 hl
  have h := Props.C07_circR_eq_one_iff l (ones l) (length_ones l).symm
    (by intro x hx; unfold ones at hx; obtain ⟨_, _, rfl⟩ := List.mem_map.1 hx; norm_num)
    (by rw [sum_ones]; exact hpos)
  rw [circR_ones l hl, Option.some.injEq, div_eq_one_iff_eq hpos.ne'] at h
  rw [h]
  constructor
  · rintro ⟨m, hm⟩
    refine ⟨m, fun x hx => ?_⟩
    have : (x, (1 : ℝ)) ∈ l.zip (ones l) := by
      have : l.zip (ones l) = l.map fun a => (a, (1 : ℝ)) := by
        unfold ones
        clear hl hpos h hm hx
        induction l with
        | nil => rfl
        | cons a l ih => rw [List.map_cons, List.zip_cons_cons, ih, List.map_cons]
      rw [this]
      exact List.mem_map.2 ⟨x, hx, rfl⟩
    exact hm _ this (by norm_num)
  · rintro ⟨m, hm⟩
    exact ⟨m, fun x hx _ => hm x.1 (List.of_mem_zip hx).1⟩

lemma norm_resultant_lt_length {l : List ℝ} (h : ¬ ∃ m, ∀ x ∈ l, SameDir x m) :
    ‖resultant l‖ < l.length :=
  lt_of_le_of_ne (norm_resultant_le l) fun he => h ((norm_resultant_eq_length_iff l).1 he)

/-- A weighted sum of squares less the correction term is the weighted sum of squares about the
weighted mean. -/
lemma weighted_ss {ι : Type} (l : List ι) (w x : ι → ℝ) (h : (l.map w).sum ≠ 0) :
    (l.map fun i => w i * x i ^ 2).sum - (l.map fun i => w i * x i).sum ^ 2 / (l.map w).sum
      = (l.map fun i => w i * (x i - (l.map fun i => w i * x i).sum / (l.map w).sum) ^ 2).sum := by
  have key : ∀ m : ℝ, (l.map fun i => w i * (x i - m) ^ 2).sum
      = (l.map fun i => w i * x i ^ 2).sum - 2 * m * (l.map fun i => w i * x i).sum
        + m ^ 2 * (l.map w).sum := by
    intro m
    clear h
    induction l with
    | nil => simp
    | cons a l ih => simp only [List.map_cons, List.sum_cons, ih]; ring
  rw [key]
  field_simp
  ring

end Verif
