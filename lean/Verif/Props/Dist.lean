import Verif.Lemmas.Dist
import Mathlib.Analysis.Real.Pi.Bounds

/-!
# C16, C17, C25: mean deviation and distances between angles
-/

set_option autoImplicit false

namespace Verif.Props

open Verif Verif.Spec Real

/-! ## C16 -/

private lemma chunkMean_eq (alpha chunk : List ℝ) :
    chunkMean alpha chunk = circMeanDeviation alpha chunk := by
  unfold chunkMean circMeanDeviation
  apply List.map_congr_left
  intro b _
  unfold mean pydiv
  simp only [List.length_map]
  by_cases h : alpha.length = 0
  · simp [h]
  · have h' : (alpha.length : ℝ) ≠ 0 := by exact_mod_cast h
    rw [if_neg h', if_neg h']
    show some (round5 _) = some (round5 _)
    congr 2
    have : (alpha.map fun a => geodesic a b).sum
        = alpha.length * π - (alpha.map fun a => |π - (|a - b|)|).sum := by
      clear h h'
      induction alpha with
      | nil => simp
      | cons a as ih =>
        simp only [List.map_cons, List.sum_cons, ih, List.length_cons]
        rw [geodesic]
        push_cast; ring
    rw [this]; field_simp

private lemma writeSlice_step {α : Type} (target init : List α) (hl : init.length = target.length)
    (s c : ℕ) (hs : s ≤ target.length) :
    writeSlice (target.take s ++ init.drop s) s ((target.drop s).take c)
      = target.take (s + c) ++ init.drop (s + c) := by
  unfold writeSlice
  have h1 : (target.take s).length = s := by rw [List.length_take]; omega
  have h2 : ((target.take s ++ init.drop s).take s) = target.take s := by
    conv_lhs => arg 1; rw [← h1]
    rw [List.take_left]
  rw [h2, ← List.take_add]
  congr 1
  rw [List.length_take, List.length_drop]
  have h3 : (target.take s ++ init.drop s).drop (s + min c (target.length - s))
      = (init.drop s).drop (min c (target.length - s)) := by
    conv_lhs => arg 1; rw [← h1]
    rw [List.drop_append]
    simp [h1]
  rw [h3, List.drop_drop]
  rcases le_total c (target.length - s) with h | h
  · rw [min_eq_left h]
  · rw [min_eq_right h, List.drop_of_length_le (by omega), List.drop_of_length_le (by omega)]

/-- The chunked computation agrees with the direct one for every positive chunk size and whatever
the freshly allocated result array contained; other chunk sizes raise `ValueError`. -/
theorem C16_chunked_eq_direct (alpha beta : List ℝ) (chunkSize : ℤ) (init : List (Option ℝ))
    (hinit : init.length = beta.length) :
    (0 < chunkSize →
      circMeanDeviationChunked alpha beta chunkSize init = .ok (circMeanDeviation alpha beta)) ∧
    (chunkSize ≤ 0 → circMeanDeviationChunked alpha beta chunkSize init = .error .valueError) := by
  constructor
  · intro hpos
    unfold circMeanDeviationChunked
    rw [if_neg (not_le.2 hpos)]
    obtain ⟨c, rfl⟩ : ∃ c : ℕ, chunkSize = c := ⟨chunkSize.toNat, by omega⟩
    have hc : 0 < c := by exact_mod_cast hpos
    simp only [Int.toNat_natCast]
    have key : ∀ k, k ≤ (beta.length + c - 1) / c →
        ((List.range k).map (· * c)).foldl (fun result start =>
          writeSlice result start (chunkMean alpha ((beta.drop start).take (start + c - start)))) init
        = (circMeanDeviation alpha beta).take (k * c) ++ init.drop (k * c) := by
      intro k hk
      induction k with
      | zero => simp
      | succ k ih =>
        rw [List.range_succ, List.map_append, List.foldl_append, ih (by omega)]
        simp only [List.map_cons, List.map_nil, List.foldl_cons, List.foldl_nil]
        have hlen : (circMeanDeviation alpha beta).length = beta.length := by
          simp [circMeanDeviation]
        have hkc : k * c ≤ beta.length := by
          have h1 : (k + 1) * c ≤ beta.length + c - 1 := (Nat.le_div_iff_mul_le hc).1 hk
          rw [Nat.add_mul, one_mul] at h1
          omega
        have hch : chunkMean alpha ((beta.drop (k * c)).take (k * c + c - k * c))
            = ((circMeanDeviation alpha beta).drop (k * c)).take c := by
          rw [chunkMean_eq, Nat.add_sub_cancel_left]
          unfold circMeanDeviation
          rw [List.map_take, List.map_drop]
        rw [hch, writeSlice_step _ _ (by rw [hinit, hlen]) _ _ (by rw [hlen]; exact hkc)]
        rw [Nat.add_mul, one_mul]
    have hfin := key _ le_rfl
    rw [hfin]
    have hcov : beta.length ≤ (beta.length + c - 1) / c * c := by
      have h1 := Nat.div_add_mod (beta.length + c - 1) c
      have h2 := Nat.mod_lt (beta.length + c - 1) hc
      rw [Nat.mul_comm] at h1
      omega
    rw [List.take_of_length_le (by simpa [circMeanDeviation] using hcov),
      List.drop_of_length_le (by rw [hinit]; exact hcov), List.append_nil]
  · intro h
    unfold circMeanDeviationChunked
    rw [if_pos h]

/-- Five values in chunks of two. -/
example (g : List (Option ℝ)) (hg : g.length = 5) :
    circMeanDeviationChunked [0, 1] [0, 1, 2, 3, 4] 2 g
      = .ok (circMeanDeviation [0, 1] [0, 1, 2, 3, 4]) :=
  (C16_chunked_eq_direct _ _ 2 g (by simpa using hg)).1 (by norm_num)

/-! ## C17 -/

/-- For `|x - y| ≤ 2π` (in particular for angles in `[0,2π]`) the geodesic formula is the
arc-length distance. -/
theorem C17_geodesic_isArcDist (x y : ℝ) (h : |x - y| ≤ 2 * π) :
    ∃ d, circDist x y "geodesic" = .ok d ∧ IsArcDist d x y := by
  refine ⟨geodesic x y, by simp [circDist], ?_⟩
  have hpi := pi_pos
  unfold geodesic
  rcases le_total |x - y| π with h1 | h1
  · rw [abs_of_nonneg (by linarith : 0 ≤ π - |x - y|), sub_sub_cancel]
    exact isArcDist_of h1 (CongMod.refl _ _)
  · rw [abs_of_nonpos (by linarith : π - |x - y| ≤ 0)]
    have h2 : IsArcDist |2 * π - (|x - y|)| x y := by
      rcases abs_cases (x - y) with ⟨e, _⟩ | ⟨e, _⟩
      · rw [e] at h h1 ⊢
        rw [← abs_neg]
        refine isArcDist_of ?_ ⟨-1, by push_cast; ring⟩
        rw [abs_neg, abs_of_nonneg] <;> linarith
      · rw [e] at h h1 ⊢
        refine isArcDist_of ?_ ⟨1, by push_cast; ring⟩
        rw [abs_of_nonneg] <;> linarith
    rw [abs_of_nonneg (by linarith)] at h2
    convert h2 using 1; ring

/-- Beyond `2π` the returned value is `2π - |x - y|`, a negative number, hence not a distance. -/
theorem C17_geodesic_negative (x y : ℝ) (h : 2 * π < |x - y|) :
    ∃ d, circDist x y "geodesic" = .ok d ∧ d < 0 ∧ ¬ IsArcDist d x y := by
  have hpi := pi_pos
  have hv : geodesic x y = 2 * π - |x - y| := by
    unfold geodesic
    rw [abs_of_nonpos (by linarith : π - |x - y| ≤ 0)]; ring
  refine ⟨geodesic x y, by simp [circDist], by rw [hv]; linarith, ?_⟩
  rintro ⟨⟨k, hk⟩, _⟩
  have := abs_nonneg (x - y + k * (2 * π))
  rw [← hk, hv] at this
  linarith

/-- So the geodesic metric is not invariant under whole turns: two turns change 0 into `-2π`. -/
theorem C17_geodesic_not_periodic : ¬ ∀ x y k : ℝ, (∃ z : ℤ, k = z * (2 * π)) →
    circDist (x + k) y "geodesic" = circDist x y "geodesic" := by
  intro h
  have := h 0 0 (2 * (2 * π)) ⟨2, by norm_num⟩
  have hpi := pi_pos
  simp [circDist, geodesic] at this
  rw [abs_of_pos hpi, abs_of_nonpos (by linarith)] at this
  linarith

/-- `circ_mean_deviation` of a sample from an angle, all in `[0,2π]`, is the average arc length,
rounded to 5 decimals. -/
theorem C17_meanDeviation_is_mean_arc (alpha : List ℝ) (b : ℝ) (d : ℝ → ℝ) (hne : alpha ≠ [])
    (hr : ∀ a ∈ alpha, |a - b| ≤ 2 * π) (hd : ∀ a ∈ alpha, IsArcDist (d a) a b) :
    circMeanDeviation alpha [b] = [some (round5 ((alpha.map d).sum / alpha.length))] := by
  rw [← chunkMean_eq]
  have hn : (alpha.length : ℝ) ≠ 0 := by exact_mod_cast (List.length_pos_of_ne_nil hne).ne'
  have : (alpha.map fun a => geodesic a b) = alpha.map d := by
    apply List.map_congr_left
    intro a ha
    obtain ⟨e, he, hE⟩ := C17_geodesic_isArcDist a b (hr a ha)
    simp [circDist] at he
    rw [he]
    exact isArcDist_unique hE (hd a ha)
  simp [chunkMean, mean, pydiv, hn, this]

example : |(1 : ℝ) - 6| ≤ 2 * π := by
  have := Real.pi_gt_three
  norm_num; linarith

/-! ## C25 -/

/-- `center` is the signed difference: the representative of `x - y` in `(-π, π]`; its absolute
value is the arc-length distance. -/
theorem C25_center (x y : ℝ) : ∃ d, circDist x y "center" = .ok d ∧
    -π < d ∧ d ≤ π ∧ SameDir d (x - y) ∧ IsArcDist |d| x y := by
  refine ⟨_, by simp [circDist], Complex.neg_pi_lt_arg _, Complex.arg_le_pi _, center_sameDir x y, ?_⟩
  exact isArcDist_of (Complex.abs_arg_le_pi _) (center_sameDir x y)

/-- It is the only such number. -/
theorem C25_center_unique (x y d : ℝ) (h0 : -π < d) (h1 : d ≤ π) (h : SameDir d (x - y)) :
    circDist x y "center" = .ok d := by
  obtain ⟨e, he, e0, e1, hs, _⟩ := C25_center x y
  rw [he]
  congr 1
  obtain ⟨k, hk⟩ := hs.trans h.symm
  have hpi := pi_pos
  have hk0 : k = 0 := by
    have h2 : (k : ℝ) < 1 := by
      by_contra hc
      have : (1 : ℝ) ≤ k := not_lt.1 hc
      nlinarith
    have h3 : (-1 : ℝ) < k := by
      by_contra hc
      have : (k : ℝ) ≤ -1 := not_lt.1 hc
      nlinarith
    have h2' : k < 1 := by exact_mod_cast h2
    have h3' : -1 < k := by exact_mod_cast h3
    omega
  rw [hk, hk0]; simp

/-- Angular separation is `1 - cos(x - y)`, in `[0,2]`; the chord is the non-negative root of twice
that, and equals `2 sin(|center|/2)`. -/
theorem C25_separation_chord (x y : ℝ) : ∃ s c e, circDist x y "angularseparation" = .ok s ∧
    circDist x y "chord" = .ok c ∧ circDist x y "center" = .ok e ∧
    s = 1 - cos e ∧ 0 ≤ s ∧ s ≤ 2 ∧ 0 ≤ c ∧ c ^ 2 = 2 * s ∧ c = 2 * sin (|e| / 2) := by
  obtain ⟨e, he, h0, h1, hs, _⟩ := C25_center x y
  have hcos : cos e = cos (x - y) := cos_eq_of_sameDir hs
  have hs0 : 0 ≤ 1 - cos (x - y) := by linarith [cos_le_one (x - y)]
  refine ⟨_, _, e, by simp [circDist], by simp [circDist], he, by rw [hcos], hs0,
    by linarith [neg_one_le_cos (x - y)], sqrt_nonneg _, sq_sqrt (by linarith), ?_⟩
  have hsin : 0 ≤ sin (|e| / 2) :=
    sin_nonneg_of_nonneg_of_le_pi (by positivity) (by
      have : |e| ≤ π := abs_le.2 ⟨h0.le, h1⟩
      linarith [pi_pos])
  rw [← hcos, ← cos_abs e, show |e| = 2 * (|e| / 2) by ring, cos_two_mul',
    show 2 * (|e| / 2) / 2 = |e| / 2 by ring]
  rw [show 2 * (1 - (cos (|e| / 2) ^ 2 - sin (|e| / 2) ^ 2)) = (2 * sin (|e| / 2)) ^ 2 by
    nlinarith [sin_sq_add_cos_sq (|e| / 2)]]
  exact sqrt_sq (by linarith)

/-- All metrics but `geodesic` ignore whole turns. -/
theorem C25_periodic (x x' y y' : ℝ) (m : String) (hm : m ≠ "geodesic") (hx : SameDir x x')
    (hy : SameDir y y') : circDist x y m = circDist x' y' m := by
  have hxy : SameDir (x - y) (x' - y') := hx.sub hy
  unfold circDist
  rw [center_eq, center_eq, (exp_eq_iff_sameDir _ _).2 hxy, cos_eq_of_sameDir hxy, if_neg hm, if_neg hm]

/-- Swapping the arguments changes nothing except the sign of `center` (away from `π`). -/
theorem C25_swap (x y : ℝ) (m : String) (hm : m ≠ "center") : circDist x y m = circDist y x m := by
  unfold circDist geodesic
  rw [if_neg hm, if_neg hm, abs_sub_comm x y, ← cos_neg (x - y), neg_sub]

/-- An unknown metric raises `ValueError`; the four known ones never raise. -/
theorem C25_metric_error (x y : ℝ) (m : String) : circDist x y m = .error .valueError ↔
    m ∉ ["center", "geodesic", "angularseparation", "chord"] := by
  unfold circDist
  split_ifs <;> simp_all

/-- `circ_pairdist` is the table of all pairwise distances. -/
theorem C25_pairdist (x y : List ℝ) (m : String) (hm : m ∈ ["center", "geodesic", "angularseparation", "chord"]) :
    ∃ t, circPairdist x y m = .ok t ∧
      List.Forall₂ (fun a row => List.Forall₂ (fun b d => circDist a b m = .ok d) y row) x t := by
  have hex : ∀ a b, ∃ d, circDist a b m = .ok d := by
    intro a b
    cases h : circDist a b m with
    | ok d => exact ⟨d, rfl⟩
    | error e =>
      exfalso
      have : e = .valueError := by
        unfold circDist at h
        split_ifs at h <;> simp_all
      rw [this] at h
      exact (C25_metric_error a b m).1 h hm
  have gen : ∀ {β γ : Type} (f : β → Except PyErr γ) (l : List β) (P : β → γ → Prop),
      (∀ b ∈ l, ∃ c, f b = .ok c ∧ P b c) → ∃ t, l.mapM f = .ok t ∧ List.Forall₂ P l t := by
    intro β γ f l P h
    induction l with
    | nil => exact ⟨[], rfl, .nil⟩
    | cons b bs ih =>
      obtain ⟨c, hc, hp⟩ := h b (by simp)
      obtain ⟨t, ht, hf⟩ := ih (fun b hb => h b (by simp [hb]))
      refine ⟨c :: t, ?_, .cons hp hf⟩
      rw [List.mapM_cons, hc, ht]; rfl
  apply gen
  intro a _
  obtain ⟨row, hrow, hf⟩ := gen (fun b => circDist a b m) y (fun b d => circDist a b m = .ok d)
    (fun b _ => by obtain ⟨d, hd⟩ := hex a b; exact ⟨d, hd, hd⟩)
  exact ⟨row, hrow, hf⟩

/-- 10° minus 350° is +20°, not -340°. -/
example : circDist (π / 18) (35 * π / 18) "center" = .ok (π / 9) :=
  C25_center_unique _ _ _ (by linarith [pi_pos]) (by linarith [pi_pos]) ⟨1, by push_cast; ring⟩

end Verif.Props
