import Verif.Lemmas.Distn

/-! # Properties of the public methods shared by all distributions (C67, C68)

`distPdf`, `distLogpdf`, `distCdf`, `distSf` are the calls `pdf(x)`, `logpdf(x)`, `cdf(x)`, `sf(x)`
on an arbitrary distribution `D` with shapes `s`; `none` is `nan` (for `logpdf` also `-inf`). -/

set_option autoImplicit false

namespace Verif

open Real Verif.Spec

/-- C67. Adding whole turns changes none of the four values, as long as neither angle is within
`1e-14` of `2π` itself. -/
theorem C67_periodic {σ : Type} (D : Family σ) (s : σ) (x : ℝ) (k : ℤ)
    (h1 : 1 / 10 ^ 14 ≤ |x - 2 * π|) (h2 : 1 / 10 ^ 14 ≤ |x + k * (2 * π) - 2 * π|) :
    distPdf D (x + k * (2 * π)) s = distPdf D x s ∧
    distLogpdf D (x + k * (2 * π)) s = distLogpdf D x s ∧
    distCdf D (x + k * (2 * π)) s = distCdf D x s ∧
    distSf D (x + k * (2 * π)) s = distSf D x s := by
  have h : wrap2pi (x + k * (2 * π)) = wrap2pi x :=
    wrap2pi_congr (wrapTol_lt.trans_le h2) (wrapTol_lt.trans_le h1) (CongMod.add_int _ _ _)
  have hp : distPdf D (x + k * (2 * π)) s = distPdf D x s := by unfold distPdf; rw [h]
  refine ⟨hp, ?_, ?_, ?_⟩
  · unfold distLogpdf; rw [hp]
  · unfold distCdf; rw [h]
  · unfold distSf; rw [h]

/-- C67. At whole turns the density agrees with its value at 0, for every distribution whose density
takes the same value at both ends of the support. -/
theorem C67_pdf_turns {σ : Type} (D : Family σ) (s : σ) (k : ℤ)
    (h : D.pdf (2 * π) s = D.pdf 0 s) : distPdf D (k * (2 * π)) s = distPdf D 0 s := by
  have hp := two_pi_pos
  have hpi := pi_gt_three
  have ht := wrapTol_lt
  have hsmall : (1 : ℝ) / 10 ^ 14 < 1 := by norm_num
  by_cases hk : k = 1
  · subst hk
    have e : ((1 : ℤ) : ℝ) * (2 * π) = 2 * π := by push_cast; ring
    unfold distPdf
    rw [e, wrap2pi_two_pi, wrap2pi_zero]
    by_cases ha : D.argcheck s
    · simp [ha, hp.le, h]
    · simp [ha]
  · have hfar : wrapTol < |(k : ℝ) * (2 * π) - 2 * π| := by
      have e : (k : ℝ) * (2 * π) - 2 * π = ((k - 1 : ℤ) : ℝ) * (2 * π) := by push_cast; ring
      rw [e, abs_mul, abs_of_pos hp]
      have h1 : (1 : ℝ) ≤ |((k - 1 : ℤ) : ℝ)| := by
        rw [← Int.cast_abs]
        exact_mod_cast Int.one_le_abs (sub_ne_zero.mpr hk)
      nlinarith
    have e : wrap2pi (k * (2 * π)) = 0 := by
      rw [wrap2pi_far hfar, pymod_eq_iff hp]
      exact ⟨le_rfl, hp, ⟨-k, by push_cast; ring⟩⟩
    unfold distPdf
    rw [e, wrap2pi_zero]

/-- C67. The distribution function is *not* periodic at the seam, for no distribution and no
accepted shape: it is 1 at `2π` but 0 at `0` and at every other whole turn. -/
theorem C67_cdf_seam {σ : Type} (D : Family σ) (s : σ) (ha : D.argcheck s) (k : ℤ) (hk : k ≠ 1) :
    distCdf D (2 * π) s = some 1 ∧ distSf D (2 * π) s = some 0 ∧
    distCdf D (k * (2 * π)) s = some 0 ∧ distSf D (k * (2 * π)) s = some 1 := by
  have hp := two_pi_pos
  have hpi := pi_gt_three
  have ht := wrapTol_lt
  have hsmall : (1 : ℝ) / 10 ^ 14 < 1 := by norm_num
  have hfar : wrapTol < |(k : ℝ) * (2 * π) - 2 * π| := by
    have e : (k : ℝ) * (2 * π) - 2 * π = ((k - 1 : ℤ) : ℝ) * (2 * π) := by push_cast; ring
    rw [e, abs_mul, abs_of_pos hp]
    have h1 : (1 : ℝ) ≤ |((k - 1 : ℤ) : ℝ)| := by
      rw [← Int.cast_abs]
      exact_mod_cast Int.one_le_abs (sub_ne_zero.mpr hk)
    nlinarith
  have e : wrap2pi (k * (2 * π)) = 0 := by
    rw [wrap2pi_far hfar, pymod_eq_iff hp]
    exact ⟨le_rfl, hp, ⟨-k, by push_cast; ring⟩⟩
  unfold distCdf distSf
  rw [wrap2pi_two_pi, e]
  simp [ha, hp, hp.not_ge]

/-- C67. The survival function is always one minus the distribution function. -/
theorem C67_sf {σ : Type} (D : Family σ) (s : σ) (x c : ℝ) (h : distCdf D x s = some c) :
    distSf D x s = some (1 - c) := by
  have hp := two_pi_pos
  obtain ⟨h0, h1⟩ := wrap2pi_mem x
  unfold distCdf at h
  unfold distSf
  by_cases ha : D.argcheck s
  · simp only [ha, not_true_eq_false, if_false] at h ⊢
    by_cases hu : 2 * π ≤ wrap2pi x
    · rw [if_pos hu] at h
      have : c = 1 := by simpa using h.symm
      rw [if_neg (by linarith), if_neg (by linarith), this]; simp
    · rw [if_neg hu] at h
      by_cases hl : 0 < wrap2pi x
      · rw [if_pos hl] at h
        rw [if_neg (by linarith), if_pos (by linarith)]
        simpa using h
      · rw [if_neg hl] at h
        have : c = 0 := by simpa using h.symm
        rw [if_pos (by linarith), this]; simp
  · simp [ha] at h

/-- Non-vacuity of the periodicity theorem: `x = 1` and three turns. -/
example : (1 : ℝ) / 10 ^ 14 ≤ |1 - 2 * π| ∧
    (1 : ℝ) / 10 ^ 14 ≤ |1 + (3 : ℤ) * (2 * π) - 2 * π| := by
  have := pi_gt_three
  constructor
  · rw [abs_sub_comm, abs_of_pos (by linarith)]; norm_num; linarith
  · rw [abs_of_pos (by push_cast; linarith)]; push_cast; norm_num; linarith

/-! ## Location and scale -/

/-- C68. Keyword arguments: the call is refused (`TypeError`) exactly when `loc` has an entry further
than `1e-8` from 0, or `scale` has an entry further than `1.001e-5` from 1, or one of the four
aliases is present; otherwise `loc` and `scale` are dropped and everything else is passed on. -/
theorem C68_keywords (kw : Kwargs) :
    ((∀ v, kw.lookup "loc" = some v → ∀ r ∈ v, |r| ≤ 1 / 10 ^ 8) ∧
      (∀ v, kw.lookup "scale" = some v → ∀ r ∈ v, |r - 1| ≤ 1 / 10 ^ 8 + 1 / 10 ^ 5) ∧
      (∀ a ∈ ["floc", "fscale", "fix_loc", "fix_scale"], kw.lookup a = none) →
        cleanLocScale kw = .ok (kw.filter fun p => p.1 ≠ "loc" ∧ p.1 ≠ "scale")) ∧
    (¬ ((∀ v, kw.lookup "loc" = some v → ∀ r ∈ v, |r| ≤ 1 / 10 ^ 8) ∧
      (∀ v, kw.lookup "scale" = some v → ∀ r ∈ v, |r - 1| ≤ 1 / 10 ^ 8 + 1 / 10 ^ 5) ∧
      (∀ a ∈ ["floc", "fscale", "fix_loc", "fix_scale"], kw.lookup a = none)) →
        cleanLocScale kw = .error .typeError) := by
  have key : ∀ (name : String) (d b : ℝ), atolDefault + rtolDefault * |d| = b →
      ((hasKey kw name ∧ ¬ isDefaultValue ((kw.lookup name).getD []) d) ↔
        ¬ ∀ v, kw.lookup name = some v → ∀ r ∈ v, |r - d| ≤ b) := by
    intro name d b hb
    unfold hasKey isDefaultValue isclose
    rcases hl : kw.lookup name with _ | v
    · simp
    · simp [hb]
  have hloc := key "loc" 0 (1 / 10 ^ 8) (by unfold atolDefault rtolDefault; norm_num)
  have hscale := key "scale" 1 (1 / 10 ^ 8 + 1 / 10 ^ 5)
    (by unfold atolDefault rtolDefault; norm_num)
  have hal : (["floc", "fscale", "fix_loc", "fix_scale"].any (fun a => decide (hasKey kw a)) = true) ↔
      ¬ ∀ a ∈ ["floc", "fscale", "fix_loc", "fix_scale"], kw.lookup a = none := by
    rw [List.any_eq_true]
    push Not
    constructor
    · rintro ⟨a, ha, h⟩
      refine ⟨a, ha, ?_⟩
      rw [decide_eq_true_eq] at h
      unfold hasKey at h
      intro hn; rw [hn] at h; simp at h
    · rintro ⟨a, ha, h⟩
      refine ⟨a, ha, ?_⟩
      rw [decide_eq_true_eq]
      exact Option.isSome_iff_ne_none.mpr h
  simp only [sub_zero] at hloc
  have hdrop : dropKey (dropKey kw "loc") "scale" =
      kw.filter fun p => p.1 ≠ "loc" ∧ p.1 ≠ "scale" := by
    unfold dropKey
    rw [List.filter_filter]
    congr 1
    funext p
    by_cases a : p.1 = "loc" <;> by_cases b : p.1 = "scale" <;> simp [a, b]
  unfold cleanLocScale
  constructor
  · rintro ⟨h1, h2, h3⟩
    rw [if_neg (by rw [hloc]; exact not_not_intro h1),
      if_neg (by rw [hscale]; exact not_not_intro h2),
      if_neg (by rw [hal]; exact not_not_intro h3), hdrop]
  · intro h
    split_ifs with c1 c2 c3
    · rfl
    · rfl
    · rfl
    · exfalso
      apply h
      refine ⟨not_not.mp (hloc.not.mp c1), not_not.mp (hscale.not.mp c2), ?_⟩
      exact not_not.mp (hal.not.mp c3)

/-- C68. The tolerance is real: a scale of `1.00001` and a location of `1e-8` are accepted without a
word and dropped, although the user asked for a (slightly) different distribution. -/
theorem C68_tolerance :
    cleanLocScale [("loc", [1 / 10 ^ 8]), ("scale", [1 + 1 / 10 ^ 5])] = .ok [] := by
  refine ((C68_keywords _).1 ⟨?_, ?_, ?_⟩).trans ?_
  · intro v hv r hr
    have : v = [1 / 10 ^ 8] := by simpa [List.lookup] using hv.symm
    subst this
    have : r = 1 / 10 ^ 8 := by simpa using hr
    rw [this, abs_of_pos (by norm_num)]
  · intro v hv r hr
    have : v = [1 + 1 / 10 ^ 5] := by simpa [List.lookup] using hv.symm
    subst this
    have : r = 1 + 1 / 10 ^ 5 := by simpa using hr
    rw [this]
    norm_num
  · intro a ha
    fin_cases ha <;> decide
  · simp

/-- C68. A location given *positionally* after the shapes is not noticed: the density is then taken
at `x - loc` without wrapping, so it is 0 on the whole of `[0, loc)`. -/
theorem C68_positional (D : Family (List ℝ)) (shapes : List ℝ) (loc x : ℝ)
    (ha : D.argcheck shapes) (h0 : 0 ≤ x) (h1 : x ≤ 6) (hl : x < loc) :
    distPdfPositional D shapes.length x (shapes ++ [loc]) = .ok (some 0) := by
  have hpi := pi_gt_d2
  have ht := wrapTol_lt
  have hsmall : (1 : ℝ) / 10 ^ 14 < 1 / 10 := by norm_num
  have hw : wrap2pi x = x := wrap2pi_self h0 (by norm_num at hpi; linarith)
  unfold distPdfPositional parsePositional
  have hlen : ¬ ((shapes ++ [loc]).length < shapes.length ∨
      shapes.length + 2 < (shapes ++ [loc]).length) := by
    simp
  rw [if_neg hlen]
  have e1 : (shapes ++ [loc]).take shapes.length = shapes := by simp
  have e2 : (shapes ++ [loc]).getD shapes.length 0 = loc := by simp
  have e3 : (shapes ++ [loc]).getD (shapes.length + 1) 1 = 1 := by simp
  rw [e1, e2, e3, hw]
  show Except.ok _ = _
  rw [if_neg (by simp [ha]), if_neg]
  rw [div_one]
  intro h; linarith [h.1]

/-- The same call without the location gives the density itself: the two disagree wherever the
density is positive. -/
theorem C68_positional_base (D : Family (List ℝ)) (shapes : List ℝ) (x : ℝ)
    (ha : D.argcheck shapes) :
    distPdfPositional D shapes.length x shapes = .ok (distPdf D x shapes) := by
  unfold distPdfPositional parsePositional distPdf
  rw [if_neg (by simp)]
  have e1 : shapes.take shapes.length = shapes := by simp
  have e2 : shapes.getD shapes.length 0 = 0 := by simp
  have e3 : shapes.getD (shapes.length + 1) 1 = 1 := by simp
  rw [e1, e2, e3]
  show Except.ok _ = _
  simp [ha]

/-- C68. `fit` on the generic path: whatever is accepted is passed on with the location fixed at 0
and the scale at 1, and with no other location or scale keyword. -/
theorem C68_fit (kw kw' : Kwargs) (h : sanitizeFit kw = .ok kw') :
    kw'.lookup "floc" = some [0] ∧ kw'.lookup "fscale" = some [1] ∧
    kw'.lookup "loc" = none ∧ kw'.lookup "scale" = none ∧
    kw'.lookup "fix_loc" = none ∧ kw'.lookup "fix_scale" = none := by
  have hl : ∀ (l : Kwargs) (a b : String), (dropKey l a).lookup b =
      if b = a then none else l.lookup b := by
    intro l a b
    induction l with
    | nil => simp [dropKey]
    | cons p t ih =>
      unfold dropKey at ih ⊢
      obtain ⟨n, v⟩ := p
      rw [List.filter_cons]
      by_cases hn : n = a
      · subst hn
        simp only [ne_eq, not_true_eq_false, decide_false, Bool.false_eq_true, if_false]
        rw [ih]
        by_cases hb : b = n
        · simp [hb]
        · rw [if_neg hb, if_neg hb, List.lookup_cons]
          have : (b == n) = false := by simpa using hb
          simp [this]
      · simp only [ne_eq, hn, not_false_eq_true, decide_true, if_true]
        rw [List.lookup_cons, List.lookup_cons]
        by_cases hb : b = n
        · subst hb; simp [hn]
        · have : (b == n) = false := by simpa using hb
          rw [this]; exact ih
  have happ : ∀ (l m : Kwargs) (b : String), (l ++ m).lookup b = (l.lookup b).or (m.lookup b) := by
    intro l m b
    induction l with
    | nil => simp
    | cons p t ih =>
      rw [List.cons_append, List.lookup_cons, List.lookup_cons]
      cases hb : (b == p.1)
      · exact ih
      · rfl
  unfold sanitizeFit at h
  split_ifs at h with c1 c2 c3 c4 c5 c6
  have e : kw' = ["loc", "scale", "floc", "fscale"].foldl dropKey kw ++
      [("floc", [0]), ("fscale", [1])] := by simpa using h.symm
  have n3 : kw.lookup "fix_loc" = none := by
    unfold hasKey at c3; exact Option.not_isSome_iff_eq_none.mp c3
  have n4 : kw.lookup "fix_scale" = none := by
    unfold hasKey at c4; exact Option.not_isSome_iff_eq_none.mp c4
  rw [e]
  simp only [List.foldl_cons, List.foldl_nil, happ, hl]
  simp [n3, n4, List.lookup]

end Verif
