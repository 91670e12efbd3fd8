import Verif.Lemmas.CdfIntegral

/-! # Shape parameters, normaliser cache, numerical cdf, `stats` (C68, C69, C70, C99) -/

set_option autoImplicit false

namespace Verif

open Real Verif.Spec

/-! ## Shape parameters by keyword -/

private theorem lookup_filter_ne {l : List (String × ℝ)} {a b : String} (h : b ≠ a) :
    (l.filter fun p => p.1 ≠ a).lookup b = l.lookup b := by
  induction l with
  | nil => rfl
  | cons p t ih =>
    rw [List.filter_cons]
    by_cases hp : p.1 = a
    · have : (b == p.1) = false := by rw [hp]; simpa using h
      simp only [ne_eq, hp, not_true_eq_false, decide_false, Bool.false_eq_true, if_false]
      rw [List.lookup_cons, this]; exact ih
    · simp only [ne_eq, hp, not_false_eq_true, decide_true, if_true]
      rw [List.lookup_cons, List.lookup_cons, ih]

private theorem shapeStep_error (l : List (String × ℕ)) (e : PyErr) :
    l.foldl shapeStep (.error e) = .error e := by
  induction l with
  | nil => rfl
  | cons p t ih => exact ih

private theorem shapeStep_cases (vals : List ℝ) (kw : List (String × ℝ)) (nm : String) (k : ℕ) :
    (kw.lookup nm = none ∧ shapeStep (.ok (vals, kw)) (nm, k) = .ok (vals, kw)) ∨
    (∃ v, kw.lookup nm = some v ∧ k < vals.length ∧
      (shapeStep (.ok (vals, kw)) (nm, k) = .ok (vals, kw.filter fun p => p.1 ≠ nm) ∨
       shapeStep (.ok (vals, kw)) (nm, k) = .error .typeError)) ∨
    (∃ v, kw.lookup nm = some v ∧ vals.length ≤ k ∧
      shapeStep (.ok (vals, kw)) (nm, k) = .ok (vals ++ [v], kw.filter fun p => p.1 ≠ nm)) := by
  unfold shapeStep
  rcases hl : kw.lookup nm with _ | v
  · left
    refine ⟨rfl, ?_⟩
    simp [hl, bind, Except.bind]
  · right
    by_cases hk : k < vals.length
    · left
      refine ⟨v, rfl, hk, ?_⟩
      have e : vals[k]? = some vals[k] := List.getElem?_eq_getElem hk
      by_cases hc : isclose vals[k] v rtolDefault atolDefault
      · left; simp [hl, bind, Except.bind, e, hc]
      · right; simp [hl, bind, Except.bind, e, hc]
    · right
      refine ⟨v, rfl, not_lt.mp hk, ?_⟩
      have e : vals[k]? = none := List.getElem?_eq_none (not_lt.mp hk)
      simp [hl, bind, Except.bind, e]

private theorem shape_length (names : List String) (k : ℕ) (vals vals' : List ℝ)
    (kw kw' : List (String × ℝ))
    (h : (names.zipIdx k).foldl shapeStep (.ok (vals, kw)) = .ok (vals', kw')) :
    vals'.length ≤ vals.length + names.length := by
  induction names generalizing k vals kw with
  | nil => simp at h; simp [h.1]
  | cons nm names ih =>
    rw [List.zipIdx_cons, List.foldl_cons] at h
    rw [List.length_cons]
    rcases shapeStep_cases vals kw nm k with ⟨_, e⟩ | ⟨v, _, _, e | e⟩ | ⟨v, _, _, e⟩ <;> rw [e] at h
    · have := ih _ _ _ h; omega
    · have := ih _ _ _ h; omega
    · rw [shapeStep_error] at h; simp at h
    · have := ih _ _ _ h; simp at this; omega

private theorem shape_slots (names : List String) (hn : names.Nodup) (k : ℕ) (vals vals' : List ℝ)
    (kw kw' : List (String × ℝ))
    (h : (names.zipIdx k).foldl shapeStep (.ok (vals, kw)) = .ok (vals', kw'))
    (hk : k ≤ vals.length) (hlen : k + names.length ≤ vals'.length) :
    (∀ i, i < vals.length → vals'[i]? = vals[i]?) ∧
    (∀ j, j < names.length → vals.length ≤ k + j →
      ∃ nm, names[j]? = some nm ∧ vals'[k + j]? = kw.lookup nm) ∧
    (∀ b, b ∉ names → kw'.lookup b = kw.lookup b) ∧
    vals'.length = max vals.length (k + names.length) := by
  induction names generalizing k vals kw with
  | nil =>
    simp at h
    obtain ⟨h1, h2⟩ := h
    subst h1 h2
    refine ⟨fun _ _ => rfl, fun j hj => by simp at hj, fun _ _ => rfl, by simp [hk]⟩
  | cons nm names ih =>
    rw [List.zipIdx_cons, List.foldl_cons] at h
    rw [List.length_cons] at hlen
    obtain ⟨hn1, hn2⟩ := List.nodup_cons.mp hn
    rcases shapeStep_cases vals kw nm k with ⟨hl, e⟩ | ⟨v, hl, hkv, e | e⟩ | ⟨v, hl, hkv, e⟩ <;>
      rw [e] at h
    · have hb := shape_length _ _ _ _ _ _ h
      obtain ⟨a1, a2, a3, a4⟩ := ih hn2 _ _ _ h (by omega) (by omega)
      refine ⟨a1, ?_, fun b hb => a3 b (fun hm => hb (by simp [hm])), by
        rw [a4, List.length_cons]; congr 1; omega⟩
      intro j hj hkj
      cases j with
      | zero => omega
      | succ j =>
        obtain ⟨m, hm1, hm2⟩ := a2 j (by simpa using hj) (by omega)
        exact ⟨m, by simpa using hm1, by rw [← hm2]; congr 1; omega⟩
    · obtain ⟨a1, a2, a3, a4⟩ := ih hn2 _ _ _ h (by omega) (by omega)
      refine ⟨a1, ?_, ?_, by rw [a4, List.length_cons]; congr 1; omega⟩
      · intro j hj hkj
        cases j with
        | zero => omega
        | succ j =>
          obtain ⟨m, hm1, hm2⟩ := a2 j (by simpa using hj) (by omega)
          refine ⟨m, by simpa using hm1, ?_⟩
          have hne : m ≠ nm := fun hh => hn1 (hh ▸ List.mem_of_getElem? hm1)
          rw [← lookup_filter_ne hne, ← hm2]; congr 1; omega
      · intro b hb
        rw [a3 b (fun hm => hb (by simp [hm])), lookup_filter_ne (fun hh => hb (by simp [hh]))]
    · rw [shapeStep_error] at h; simp at h
    · have hkeq : vals.length = k := le_antisymm hkv hk
      obtain ⟨a1, a2, a3, a4⟩ := ih hn2 _ _ _ h (by simp; omega) (by omega)
      refine ⟨?_, ?_, ?_, by
        rw [a4, List.length_cons, List.length_append, List.length_singleton, hkeq]; omega⟩
      · intro i hi
        rw [a1 i (by simp; omega), List.getElem?_append_left hi]
      · intro j hj hkj
        cases j with
        | zero =>
          refine ⟨nm, by simp, ?_⟩
          rw [a1 (k + 0) (by simp; omega), hl, ← hkeq]; simp
        | succ j =>
          obtain ⟨m, hm1, hm2⟩ := a2 j (by simpa using hj) (by simp; omega)
          refine ⟨m, by simpa using hm1, ?_⟩
          have hne : m ≠ nm := fun hh => hn1 (hh ▸ List.mem_of_getElem? hm1)
          rw [← lookup_filter_ne hne, ← hm2]; congr 1; omega
      · intro b hb
        rw [a3 b (fun hm => hb (by simp [hm])), lookup_filter_ne (fun hh => hb (by simp [hh]))]

/-- C68. Whenever a call ends up with a value for every shape, each of them is the right one: the
positional value if there is one, otherwise the keyword of that name (and the keywords not naming a
shape are left for later). -/
theorem C68_shapes (names : List String) (hn : names.Nodup) (args vals : List ℝ)
    (kw rest : List (String × ℝ)) (hargs : args.length ≤ names.length) (hkw : kw ≠ [])
    (h : separateShapes names args kw = .ok (vals, rest)) (hfull : names.length ≤ vals.length) :
    vals.length = names.length ∧
    (∀ i, i < args.length → vals[i]? = args[i]?) ∧
    (∀ i, args.length ≤ i → i < names.length →
      ∃ nm, names[i]? = some nm ∧ vals[i]? = kw.lookup nm) ∧
    (∀ b, b ∉ names → rest.lookup b = kw.lookup b) := by
  unfold separateShapes at h
  rw [if_neg hkw] at h
  obtain ⟨a1, a2, a3, a4⟩ := shape_slots names hn 0 args vals kw rest h (by omega) (by omega)
  refine ⟨by rw [a4]; omega, a1, fun i h1 h2 => ?_, a3⟩
  obtain ⟨nm, e1, e2⟩ := a2 i h2 (by omega)
  exact ⟨nm, e1, by simpa using e2⟩

/-- C68. A positional value and a keyword that differ by more than the tolerance are refused. -/
theorem C68_shape_conflict :
    separateShapes ["mu", "kappa"] [1, 2] [("kappa", 3)] = .error .typeError := by
  have hc : ¬ isclose (2 : ℝ) 3 rtolDefault atolDefault := by
    unfold isclose rtolDefault atolDefault; norm_num
  unfold separateShapes
  rw [if_neg (by simp)]
  simp [shapeStep, bind, Except.bind, List.zipIdx, hc, List.lookup]

/-- Non-vacuity: `mu` positional, `kappa` by keyword. -/
example : separateShapes ["mu", "kappa"] [1] [("kappa", 3)] = .ok ([1, 3], []) := by
  unfold separateShapes
  rw [if_neg (by simp)]
  simp [shapeStep, bind, Except.bind, List.zipIdx, List.lookup]

/-! ## The normaliser cache -/

private theorem cacheKey_inj : ∀ {p q : List (List ℝ)} {k : List ℝ},
    cacheKey p = some k → cacheKey q = some k → p = q := by
  have key : ∀ (p : List (List ℝ)) (k : List ℝ), cacheKey p = some k → p = k.map fun v => [v] := by
    intro p
    induction p with
    | nil => intro k h; simp [cacheKey] at h; subst h; rfl
    | cons a t ih =>
      intro k h
      unfold cacheKey at h
      rw [List.mapM_cons] at h
      match a, h with
      | [v], h =>
        rcases ht : t.mapM scalarOf with _ | k'
        · simp [ht, scalarOf] at h
        · simp [ht, scalarOf] at h
          subst h
          rw [ih k' ht]; rfl
      | [], h => simp [scalarOf] at h
      | _ :: _ :: _, h => simp [scalarOf] at h
  intro p q k hp hq
  rw [key p k hp, key q k hq]

private theorem cachedCalls_inv {ν : Type} (build : List (List ℝ) → ν) (cache : NormCache ν)
    (hc : ∀ k v, cache.lookup k = some v → ∀ p, cacheKey p = some k → v = build p)
    (hist : List (List (List ℝ))) : cachedCalls build cache hist = hist.map build := by
  induction hist generalizing cache with
  | nil => rfl
  | cons p ps ih =>
    unfold cachedCalls cachedNormalizer
    rcases hk : cacheKey p with _ | key
    · simp only [List.map_cons]
      rw [ih cache hc]
    · rcases hl : cache.lookup key with _ | v
      · simp only [hl, List.map_cons]
        rw [ih]
        intro k v hv q hq
        rw [List.lookup_cons] at hv
        by_cases hkk : k = key
        · subst hkk
          have : build p = v := by simpa using hv
          rw [← this, cacheKey_inj hk hq]
        · have e : (k == key) = false := by simpa using hkk
          rw [e] at hv
          exact hc k v hv q hq
      · simp only [hl, List.map_cons]
        rw [ih cache hc, hc key v hl p hk]

/-- C69. For every history of calls on a fresh object, of any length and with any parameters (also
array-valued ones, which are not cached), each call returns exactly what its builder computes. -/
theorem C69_cache_transparent {ν : Type} (build : List (List ℝ) → ν)
    (hist : List (List (List ℝ))) : cachedCalls build [] hist = hist.map build :=
  cachedCalls_inv build [] (by simp) hist

/-- C69. And the builder is run at most once per scalar key: a second call with the same parameters
returns the stored value whatever `compute` would do. -/
theorem C69_computed_once {ν : Type} (cache : NormCache ν) (c c' : ν) (params : List (List ℝ))
    (h : cacheKey params ≠ none) :
    (cachedNormalizer (cachedNormalizer cache c params).2 c' params).1 =
      (cachedNormalizer cache c params).1 := by
  unfold cachedNormalizer
  rcases hk : cacheKey params with _ | key
  · exact absurd hk h
  · rcases hl : cache.lookup key with _ | v
    · simp [hl]
    · simp [hl]

/-! ## The numerical cdf -/

/-- C70. The generic integral cdf, for a quadrature that is non-negative on ordered intervals:
one value per query, all in `[0, 1]`, non-decreasing in the query. -/
theorem C70_monotone (quad : ℝ → ℝ → ℝ) (lo hi : ℝ) (hq : ∀ a b, a ≤ b → 0 ≤ quad a b)
    (xs : List ℝ) :
    (cdfIntegral quad lo hi xs).length = xs.length ∧
    (∀ r ∈ cdfIntegral quad lo hi xs, 0 ≤ r ∧ r ≤ 1) ∧
    (∀ (i j : ℕ) (x y rx ry : ℝ), xs[i]? = some x → xs[j]? = some y → x ≤ y →
      (cdfIntegral quad lo hi xs)[i]? = some rx → (cdfIntegral quad lo hi xs)[j]? = some ry →
      rx ≤ ry) := by
  refine ⟨by simp [cdfIntegral], ?_, ?_⟩
  · intro r hr
    obtain ⟨i, hi'⟩ := List.mem_iff_getElem?.mp hr
    have hlt : i < xs.length := by
      by_contra h
      rw [List.getElem?_eq_none (by simpa [cdfIntegral] using h)] at hi'; simp at hi'
    obtain ⟨a, _, ha2⟩ := cdfIntegral_getElem (quad := quad) (lo := lo) (hi := hi) xs i _
      (List.getElem?_eq_getElem hlt)
    rw [ha2] at hi'
    exact cdfVals_mem _ _ r (List.mem_of_getElem? hi')
  · intro i j x y rx ry hx hy hxy hrx hry
    obtain ⟨a, ha1, ha2⟩ := cdfIntegral_getElem (quad := quad) (lo := lo) (hi := hi) xs i x hx
    obtain ⟨b, hb1, hb2⟩ := cdfIntegral_getElem (quad := quad) (lo := lo) (hi := hi) xs j y hy
    rw [ha2] at hrx
    rw [hb2] at hry
    have hs := cdfSorted_pairwise xs
    have hp := cdfVals_pairwise (lo := lo) (hi := hi) hq (0, lo) _ hs
    rcases lt_trichotomy a b with hab | hab | hab
    · obtain ⟨la, ea⟩ := List.getElem?_eq_some_iff.mp hrx
      obtain ⟨lb, eb⟩ := List.getElem?_eq_some_iff.mp hry
      have := List.pairwise_iff_getElem.mp hp a b la lb hab
      rwa [ea, eb] at this
    · subst hab
      rw [hrx] at hry
      exact (Option.some.inj hry).le
    · -- then `y ≤ x` too, so the two queries are equal
      obtain ⟨la, ea⟩ := List.getElem?_eq_some_iff.mp ha1
      obtain ⟨lb, eb⟩ := List.getElem?_eq_some_iff.mp hb1
      have hyx := List.pairwise_iff_getElem.mp hs b a lb la hab
      rw [ea, eb] at hyx
      have hxy' : x = y := le_antisymm hxy hyx
      subst hxy'
      have := cdfVals_tie (quad := quad) (lo := lo) (hi := hi) (0, lo) _ hs a b x ha1 hb1
      rw [hrx, hry] at this
      exact (Option.some.inj this).le

/-- C70. The answer to a query does not depend on the order in which the queries are given. -/
theorem C70_order (quad : ℝ → ℝ → ℝ) (lo hi : ℝ) (xs ys : List ℝ) (h : xs.Perm ys)
    (i j : ℕ) (x : ℝ) (hx : xs[i]? = some x) (hy : ys[j]? = some x) :
    (cdfIntegral quad lo hi xs)[i]? = (cdfIntegral quad lo hi ys)[j]? := by
  obtain ⟨a, ha1, ha2⟩ := cdfIntegral_getElem (quad := quad) (lo := lo) (hi := hi) xs i x hx
  obtain ⟨b, hb1, hb2⟩ := cdfIntegral_getElem (quad := quad) (lo := lo) (hi := hi) ys j x hy
  rw [ha2, hb2]
  rw [← cdfSorted_fst_congr h] at hb1 ⊢
  exact cdfVals_tie _ _ (cdfSorted_pairwise xs) a b x ha1 hb1

/-- C70. With exact quadrature of a density `f ≤ B`, the answer is 0 at or below the lower end, 1 at
or above the upper end, and in between the integral of `f` from the lower end, up to `B · 1e-15`
(two queries closer than `1e-15` share their answer). -/
theorem C70_accuracy (f : ℝ → ℝ) (lo hi B : ℝ) (hlo : lo < hi)
    (hf : ∀ a b, IntervalIntegrable f MeasureTheory.volume a b) (h0 : ∀ t, 0 ≤ f t)
    (hB : ∀ t, f t ≤ B) (xs : List ℝ) (i : ℕ) (x : ℝ) (hx : xs[i]? = some x) :
    ∃ r, (cdfIntegral (fun a b => ∫ t in a..b, f t) lo hi xs)[i]? = some r ∧
      (x ≤ lo → r = 0) ∧ (hi ≤ x → r = 1) ∧
      (lo < x → x < hi → |r - min (∫ t in lo..x, f t) 1| ≤ B * (1 / 10 ^ 15)) := by
  obtain ⟨a, ha1, ha2⟩ := cdfIntegral_getElem (quad := fun a b => ∫ t in a..b, f t)
    (lo := lo) (hi := hi) xs i x hx
  have hpos : ∀ a b, a ≤ b → 0 ≤ ∫ t in a..b, f t := fun a b hab =>
    intervalIntegral.integral_nonneg hab (fun t _ => h0 t)
  obtain ⟨r, hr, h1, h2, h3⟩ := cdfVals_accuracy (quad := fun a b => ∫ t in a..b, f t)
    (lo := lo) (hi := hi) (B := B)
    (fun a b c _ _ => intervalIntegral.integral_add_adjacent_intervals (hf a b) (hf b c))
    hpos
    (fun a b hab => by
      have := intervalIntegral.integral_mono_on hab (hf a b)
        (intervalIntegrable_const (c := B)) (fun t _ => hB t)
      refine this.trans ?_
      rw [intervalIntegral.integral_const, smul_eq_mul, mul_comm])
    (by simp) hlo (0, lo) _ (cdfSorted_pairwise xs)
    (Or.inr ⟨by simp, le_rfl, fun v _ h => h.le⟩) a x ha1
  refine ⟨r, by rw [ha2]; exact hr, h1, h2, fun hl hu => ?_⟩
  have := h3 hl hu
  unfold clip at this
  rwa [max_eq_left (hpos lo x hl.le)] at this

/-- Non-vacuity: the uniform density on `[0, 2π]`. -/
example : (0 : ℝ) < 2 * π ∧ (∀ a b, IntervalIntegrable (fun _ : ℝ => 1 / (2 * π))
    MeasureTheory.volume a b) ∧ (∀ _t : ℝ, 0 ≤ 1 / (2 * π)) :=
  ⟨two_pi_pos, fun _ _ => intervalIntegrable_const,
    fun _ => by have := pi_pos; positivity⟩

/-! ## `stats` -/

/-- C99. The dictionary returned by `stats()` contains exactly what the eight separate methods
return, for every distribution and all values of the first two trigonometric moments. -/
theorem C99_stats {σ : Type} (D : Family σ) (s : σ) (m1 m2 : ℂ) :
    (distStats D s m1 m2).mean = distMean m1 ∧
    (distStats D s m1 m2).median = distMedian D s ∧
    (distStats D s m1 m2).r = distR m1 ∧
    (distStats D s m1 m2).var = distVar m1 ∧
    (distStats D s m1 m2).std = distStd m1 ∧
    (distStats D s m1 m2).dispersion = distDispersion m1 m2 ∧
    (distStats D s m1 m2).skewness = distSkewness m1 m2 ∧
    (distStats D s m1 m2).kurtosis = distKurtosis m1 m2 := by
  have hcc : clip (clip ‖m1‖ 0 1) 0 1 = clip ‖m1‖ 0 1 :=
    clip01_self (clip01_mem _).1 (clip01_mem _).2
  refine ⟨rfl, rfl, rfl, rfl, ?_, rfl, rfl, rfl⟩
  unfold distStats distStd distR
  simp only [hcc]

/-- C99. Rotating the distribution by `t` (moments multiplied by `e^{it}`, `e^{2it}`) rotates the
mean by `t` and leaves all the other helpers unchanged. -/
theorem C99_rotate (m1 m2 : ℂ) (t : ℝ) (h1 : m1 ≠ 0) :
    let m1' := Complex.exp (t * Complex.I) * m1
    let m2' := Complex.exp ((2 * t : ℝ) * Complex.I) * m2
    distR m1' = distR m1 ∧ distVar m1' = distVar m1 ∧ distStd m1' = distStd m1 ∧
    distDispersion m1' m2' = distDispersion m1 m2 ∧
    distSkewness m1' m2' = distSkewness m1 m2 ∧ distKurtosis m1' m2' = distKurtosis m1 m2 ∧
    (distMean m1 = none → distMean m1' = none) ∧
    (∀ u, distMean m1 = some u → ∃ u', distMean m1' = some u' ∧ SameDir u' (u + t)) := by
  intro m1' m2'
  have e1 : ‖m1'‖ = ‖m1‖ := by
    show ‖Complex.exp (t * Complex.I) * m1‖ = _
    rw [norm_mul, Complex.norm_exp_ofReal_mul_I, one_mul]
  have e2 : ‖m2'‖ = ‖m2‖ := by
    show ‖Complex.exp ((2 * t : ℝ) * Complex.I) * m2‖ = _
    rw [norm_mul, Complex.norm_exp_ofReal_mul_I, one_mul]
  have hang : ∀ (s : ℝ) (z : ℂ), z ≠ 0 →
      ((Complex.arg (Complex.exp (s * Complex.I) * z) : ℝ) : Real.Angle) =
        (s : Real.Angle) + (Complex.arg z : Real.Angle) := by
    intro s z hz
    rw [Complex.arg_mul_coe_angle (Complex.exp_ne_zero _) hz]
    congr 1
    rw [Complex.arg_exp_mul_I]
    exact Real.Angle.coe_toIocMod s (-π)
  have a1 := hang t m1 h1
  have hdiff : m2 ≠ 0 → ((Complex.arg m2' - 2 * Complex.arg m1' : ℝ) : Real.Angle) =
      ((Complex.arg m2 - 2 * Complex.arg m1 : ℝ) : Real.Angle) := by
    intro h2
    have a2 := hang (2 * t) m2 h2
    have c1 : ∀ a b : ℝ, ((a - 2 * b : ℝ) : Real.Angle) = (a : Real.Angle) - (b + b : Real.Angle) := by
      intro a b
      rw [Real.Angle.coe_sub, two_mul, Real.Angle.coe_add]
    rw [c1, c1]
    show ((Complex.arg (Complex.exp ((2 * t : ℝ) * Complex.I) * m2) : ℝ) : Real.Angle)
      - ((Complex.arg (Complex.exp (t * Complex.I) * m1) : ℝ)
        + (Complex.arg (Complex.exp (t * Complex.I) * m1) : ℝ) : Real.Angle) = _
    rw [a1, a2, two_mul, Real.Angle.coe_add]
    abel
  have hsin : clip ‖m2‖ 0 1 * sin (Complex.arg m2' - 2 * Complex.arg m1') =
      clip ‖m2‖ 0 1 * sin (Complex.arg m2 - 2 * Complex.arg m1) := by
    by_cases h2 : m2 = 0
    · subst h2; simp [clip]
    · rw [← Real.Angle.sin_coe, ← Real.Angle.sin_coe, hdiff h2]
  have hcos : clip ‖m2‖ 0 1 * cos (Complex.arg m2' - 2 * Complex.arg m1') =
      clip ‖m2‖ 0 1 * cos (Complex.arg m2 - 2 * Complex.arg m1) := by
    by_cases h2 : m2 = 0
    · subst h2; simp [clip]
    · rw [← Real.Angle.cos_coe, ← Real.Angle.cos_coe, hdiff h2]
  have hfar : ∀ z : ℂ, SameDir (wrapDirection (Complex.arg z)) (Complex.arg z) := by
    intro z
    refine wrap2pi_sameDir (Or.inl ?_)
    have h := Complex.arg_le_pi z
    have hp := pi_gt_three
    have ht := wrapTol_lt
    have : (1 : ℝ) / 10 ^ 14 < 1 := by norm_num
    rw [abs_sub_comm, abs_of_pos (by linarith)]; linarith
  refine ⟨?_, ?_, ?_, ?_, ?_, ?_, ?_, ?_⟩
  · unfold distR; rw [e1]
  · unfold distVar distR; rw [e1]
  · unfold distStd distR; rw [e1]
  · unfold distDispersion; rw [e1, e2]
  · unfold distSkewness; simp only [e1, e2, hsin]
  · unfold distKurtosis; simp only [e1, e2, hcos]
  · unfold distMean; rw [e1]; split_ifs <;> simp
  · intro u hu
    unfold distMean at hu ⊢
    rw [e1]
    split_ifs at hu ⊢ with hc
    have hu' : wrapDirection (Complex.arg m1) = u := by simpa using hu
    refine ⟨_, rfl, ?_⟩
    have s1 : SameDir (Complex.arg m1') (Complex.arg m1 + t) := by
      have h3 : ((Complex.arg m1' : ℝ) : Real.Angle) = ((Complex.arg m1 + t : ℝ) : Real.Angle) := by
        show ((Complex.arg (Complex.exp (t * Complex.I) * m1) : ℝ) : Real.Angle) = _
        rw [a1, Real.Angle.coe_add, add_comm]
      obtain ⟨k, hk⟩ := Real.Angle.angle_eq_iff_two_pi_dvd_sub.mp h3
      exact ⟨k, by linarith⟩
    refine (hfar m1').trans (s1.trans ?_)
    rw [← hu']
    exact ((hfar m1).symm).add_right t

/-- Non-vacuity of the rotation theorem. -/
example : (1 / 2 : ℂ) ≠ 0 := by norm_num

end Verif
