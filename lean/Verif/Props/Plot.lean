import Verif.Lemmas.Plot
import Verif.Props.BaseB
import Mathlib.Analysis.Real.Pi.Bounds

/-!
# C124-C126: plots
-/

set_option autoImplicit false

namespace Verif.Props

open Real Verif.Spec

/-! ## the configuration -/

/-- Every entry of the configuration that a plot uses is what the user expects from the default and from what they
wrote; in particular, nothing they did not mention changes. -/
theorem C124_merged (defaults user cfg : Dict) (hu : (user.map Prod.fst).Nodup)
    (h : mergeDicts defaults user = .ok cfg) (k : String) :
    EntryMerged (dget defaults k) (dget user k) (dget cfg k) := by
  have := mergeItems_lookup defaults user defaults cfg hu (fun _ _ => rfl) h k
  by_cases hk : k ∈ user.map Prod.fst
  · exact this.2 hk
  · rw [dget_none_of_notMem user k hk]
    exact this.1 hk

example : ∃ cfg, mergeDicts defaultPlotConfig [("mean", .dict [("ci", .bool false)]), ("rose", .bool false)] = .ok cfg ∧
    dget cfg "rose" = some (.bool false) ∧ dget cfg "mean" = some (.dict [("color", .str "black"),
      ("linestyle", .str "-"), ("kind", .str "arrow"), ("ci", .bool false)]) := by
  simp [mergeDicts, mergeItems, mergeSub, defaultPlotConfig, dget, dset, Except.bind]

/-- The merge is refused, with a `KeyError`, exactly if `True` is given for a feature that does not exist. -/
theorem C124_refused (defaults user : Dict) (hu : (user.map Prod.fst).Nodup)
    (hflat : ∀ e ∈ user, ∀ s, e.2 = .dict s → ∀ e' ∈ s, ∀ d, e'.2 ≠ .dict d) :
    mergeDicts defaults user = .error .keyError ↔ ∃ k, dget user k = some (.bool true) ∧ dget defaults k = none := by
  constructor
  · intro h
    by_contra hno
    push Not at hno
    have : ∀ (o merged : Dict), (∀ e ∈ o, ∀ s, e.2 = .dict s → ∀ e' ∈ s, ∀ d, e'.2 ≠ .dict d) →
        (∀ e ∈ o, e.2 = .bool true → dget defaults e.1 ≠ none) → ∃ c, mergeItems defaults merged o = .ok c := by
      intro o
      induction o with
      | nil => intro merged _ _; exact ⟨merged, by rw [mergeItems]⟩
      | cons e rest ih =>
        obtain ⟨key, value⟩ := e
        intro merged h1 h2
        have hr := fun v => ih (dset merged key v) (fun e he => h1 e (by simp [he])) (fun e he => h2 e (by simp [he]))
        have hv1 := h1 (key, value) (by simp)
        have hv2 := h2 (key, value) (by simp)
        cases value with
        | bool b =>
          cases b with
          | false => simpa only [mergeItems] using hr _
          | true =>
            simp only [mergeItems]
            cases hd : dget defaults key with
            | none => exact absurd hd (hv2 rfl)
            | some v => exact hr v
        | dict s =>
          simp only [mergeItems]
          split
          · rename_i m hm
            obtain ⟨m', hm'⟩ := mergeSub_ok s m (hv1 s rfl)
            rw [hm']
            exact hr _
          · exact hr _
        | _ => simpa only [mergeItems] using hr _
    obtain ⟨c, hc⟩ := this user defaults hflat (fun e he ht => by
      refine hno e.1 ?_
      clear hflat h hno
      induction user with
      | nil => simp at he
      | cons a user ih =>
        obtain ⟨k', v'⟩ := a
        simp only [List.map_cons, List.nodup_cons] at hu
        rcases List.mem_cons.1 he with rfl | he'
        · simpa [dget] using ht
        · simp only [dget]
          rw [if_neg (by rintro rfl; exact hu.1 (List.mem_map_of_mem he'))]
          exact ih hu.2 he')
    rw [mergeDicts, hc] at h
    cases h
  · rintro ⟨k, hk, hd⟩
    cases hm : mergeDicts defaults user with
    | error e => rw [mergeItems_error _ _ _ _ hm]
    | ok c =>
      have := C124_merged defaults user c hu hm k
      rw [hk, hd] at this
      exact absurd rfl this.1

example : mergeDicts defaultPlotConfig [("rose", .bool false), ("means", .bool true)] = .error .keyError :=
  (C124_refused _ _ (by simp) (by simp)).2 ⟨"means", by simp [dget], by simp [dget, defaultPlotConfig]⟩

/-- `True` for one feature is the same as saying nothing. -/
theorem C124_true (c : CircularObj) (unit : String) (mx : Option (List ℝ → List ℝ)) (k : String)
    (hk : dget defaultPlotConfig k ≠ none) :
    circPlot c unit mx (some [(k, .bool true)]) = circPlot c unit mx none := by
  unfold circPlot
  obtain ⟨v, hv⟩ := Option.ne_none_iff_exists'.1 hk
  have : mergeDicts defaultPlotConfig [(k, .bool true)] = .ok defaultPlotConfig := by
    simp only [mergeDicts, mergeItems, hv, dset_same _ _ _ hv]
  rw [Option.getD_some, this, Option.getD_none, mergeDicts_nil]

/-- So `{"spine": True}` does not show the spine, whose default is `False`. -/
theorem C124_spine (c : CircularObj) (unit : String) (mx : Option (List ℝ → List ℝ)) (draws : List Draw)
    (h : circPlot c unit mx (some [("spine", .bool true)]) = .ok draws) :
    ∃ z d g a, Draw.frame z d g a (.bool false) ∈ draws := by
  rw [C124_true c unit mx "spine" (by simp [dget, defaultPlotConfig])] at h
  obtain ⟨cfg, d1, d2, cfg', d3, d4, d5, hc, h1, h2, h3, h4, h5, rfl⟩ := circPlot_ok h
  rw [Option.getD_none, mergeDicts_nil] at hc
  cases hc
  have hcfg : cfg' = defaultPlotConfig := plotRose_cfg default_rose (by simp [truthy]) h2
  subst hcfg
  unfold plotFrame at h5
  obtain ⟨z, _, h5⟩ := except_bind_ok h5
  obtain ⟨d, _, h5⟩ := except_bind_ok h5
  obtain ⟨g, _, h5⟩ := except_bind_ok h5
  obtain ⟨a, _, h5⟩ := except_bind_ok h5
  obtain ⟨s, hs, h5⟩ := except_bind_ok h5
  obtain ⟨_, _, h5⟩ := except_bind_ok h5
  obtain ⟨_, _, h5⟩ := except_bind_ok h5
  obtain ⟨_, _, h5⟩ := except_bind_ok h5
  obtain ⟨_, _, h5⟩ := except_bind_ok h5
  obtain ⟨_, _, h5⟩ := except_bind_ok h5
  obtain ⟨_, _, h5⟩ := except_map_ok h5
  have : item defaultPlotConfig "spine" = .ok (.bool false) := rfl
  rw [this] at hs
  cases hs
  refine ⟨z, d, g, a, ?_⟩
  rw [← h5]
  simp

/-- An ungrouped object: four observations, two in each of two opposite directions. -/
noncomputable def plotExample : CircularObj :=
  { fullCycle := 360, alpha := [0, 0, π, π], w := [1, 1, 1, 1], grouped := false, binSize := 0, n := 4, mean := none,
    r := 0, pval := 1, R := 0, kappa := 0, meanCiMethod := none, meanCi := some (6, 1 / 2), s := none, s0 := none,
    median := some [π / 2], medianCi := some (none, 0.95), skewness := none, kurtosis := none }

lemma plotExample_works (unit : String) : ∃ draws, circPlot plotExample unit none none = .ok draws :=
  default_works plotExample unit none rfl (by simp [plotExample]) (π / 2) rfl _ rfl

example : ∃ draws, circPlot plotExample "degree" none (some [("spine", .bool true)]) = .ok draws := by
  rw [C124_true _ _ _ _ (by simp [dget, defaultPlotConfig])]
  exact plotExample_works "degree"

/-! ## the points -/

/-- Ungrouped data: one point is drawn for each observation, at its angle rounded to three decimals; the observations at
one angle are stacked outwards (or inwards) from the starting radius in steps of 0.05, so that no two points coincide.
By default the starting radius is 1 and the stacks go outwards. -/
theorem C125_points (c : CircularObj) (unit : String) (mx : Option (List ℝ → List ℝ)) (config : Option Dict)
    (draws : List Draw) (hg : c.grouped = false) (h : circPlot c unit mx config = .ok draws) :
    ∃ pts r s, Draw.scatter pts ∈ draws ∧ (pts.map Prod.fst).Perm (c.alpha.map round3) ∧
      (s = 1 ∨ s = -1) ∧ (config = none → r = 1 ∧ s = 1) ∧
      ∀ u, (pts.filter fun p => decide (p.1 = u)).map Prod.snd =
        (List.range ((c.alpha.map round3).countP fun a => decide (a = u))).map fun i : ℕ =>
          r + s * 0.05 * ((i : ℝ) + 1) := by
  obtain ⟨cfg, d1, d2, cfg', d3, d4, d5, hc, h1, h2, h3, h4, h5, rfl⟩ := circPlot_ok h
  rw [hg] at h1
  simp only [Bool.false_eq_true, if_false] at h1
  unfold plotUngrouped at h1
  obtain ⟨out, ho, h1⟩ := except_bind_ok h1
  obtain ⟨sc, hs, h1⟩ := except_bind_ok h1
  obtain ⟨rv, hr, h1⟩ := except_bind_ok h1
  obtain ⟨r, hrn, h1⟩ := except_bind_ok h1
  split_ifs at h1 with hne
  obtain ⟨dens, hd, h1⟩ := except_bind_ok h1
  have hmem : Draw.scatter (scatterPts r (truthy out) c.alpha) ∈ d1 := by
    split_ifs at h1 with ht
    · obtain ⟨⟨x, f⟩, hx, h1⟩ := except_bind_ok h1
      cases hl : plotYlim cfg (f.map fun y => y + 1.05) 0 with
      | error e => simp only [hl] at h1; cases h1
      | ok lim => simp only [hl] at h1; cases h1; simp
    · cases hl : plotYlim cfg (scatterRadii r (truthy out) (scatterCounts c.alpha)) 0.025 with
      | error e => simp only [hl] at h1; cases h1
      | ok lim => simp only [hl] at h1; cases h1; simp
  refine ⟨scatterPts r (truthy out) c.alpha, r, if truthy out then 1 else -1, ?_, scatterPts_perm _ _ _, ?_, ?_, ?_⟩
  · simp [hmem]
  · split_ifs <;> simp
  · rintro rfl
    simp only [Option.getD_none, mergeDicts, mergeItems] at hc
    cases hc
    simp only [item, defaultPlotConfig, dget, String.reduceEq, if_false, if_true] at ho hs
    cases ho
    cases hs
    simp only [subItem, item, dget, String.reduceEq, if_false, if_true] at hr
    cases hr
    cases hrn
    simp [truthy]
  · intro u
    rw [scatterPts_filter, List.map_map]
    apply List.map_congr_left
    intro i _
    simp only [Function.comp_apply]
    split_ifs <;> ring

/-! ## the rose diagram -/

/-- The rose diagram of ungrouped data, for any number of bins: every observation is counted in exactly one bin, the
tallest bar reaches radius 1, and the areas of the bars are proportional to the counts. -/
theorem C125_rose (c : CircularObj) (unit : String) (mx : Option (List ℝ → List ℝ)) (m : ℕ) (hm : 0 < m)
    (draws : List Draw) (hg : c.grouped = false) (hne : c.alpha ≠ [])
    (hα : ∀ a ∈ c.alpha, 0 ≤ a ∧ a ≤ 2 * π) (h : circPlot c unit mx (some (binsConfig m)) = .ok draws) :
    ∃ w : List ℝ, w.length = m ∧ w.sum = c.alpha.length ∧
      (∀ i < m, w.getD i 0 = ((c.alpha.countP fun a => decide ((i : ℝ) * (2 * π / m) ≤ a) &&
        (decide (a < ((i : ℝ) + 1) * (2 * π / m)) || (decide (i + 1 = m) && decide (a = ((i : ℝ) + 1) * (2 * π / m)))) :
          ℕ) : ℝ)) ∧
      ∃ wmax ∈ w, 0 < wmax ∧ (∀ x ∈ w, x ≤ wmax) ∧
        (∀ i, 2 * π / m / 2 * sqrt (w.getD i 0 / wmax) ^ 2 = w.getD i 0 * (π / (m * wmax))) ∧
        Draw.bars (.num (2 * π / m))
          ((List.range m).map fun i : ℕ => (((i : ℝ) + 1 / 2) * (2 * π / m), some (sqrt (w.getD i 0 / wmax)))) ∈
            draws := by
  have hmne : (m : ℝ) ≠ 0 := by exact_mod_cast hm.ne'
  have hlen : (histCounts c.alpha (histEdges m)).length = m := by
    rw [histCounts_length]; simp [histEdges]
  have hsum : (histCounts c.alpha (histEdges m)).sum = c.alpha.length := by
    have hp := histEdges_pairwise m hm
    rw [histEdges_cons] at hp ⊢
    rw [histCounts_sum _ _ _ hp (by simp; omega)]
    have hlast : (0 :: ((List.range m).map fun i : ℕ => ((i : ℝ) + 1) * (2 * π / m))).getLast (by simp) = 2 * π := by
      rw [List.getLast_cons (by simp; omega), List.getLast_eq_getElem]
      simp only [List.length_map, List.length_range, List.getElem_map, List.getElem_range]
      have : ((m - 1 : ℕ) : ℝ) = m - 1 := by
        rw [Nat.cast_sub (by omega)]; simp
      rw [this]
      field_simp
      ring
    rw [hlast, List.countP_eq_length.2]
    intro a ha
    simpa using hα a ha
  have hcount : ∀ i < m, (histCounts c.alpha (histEdges m)).getD i 0 = ((c.alpha.countP fun a =>
      decide ((i : ℝ) * (2 * π / m) ≤ a) && (decide (a < ((i : ℝ) + 1) * (2 * π / m)) ||
        (decide (i + 1 = m) && decide (a = ((i : ℝ) + 1) * (2 * π / m)))) : ℕ) : ℝ) := by
    intro i hi
    rw [histCounts_getD c.alpha (histEdges m) i (by simp [histEdges, hi])]
    simp [histEdges]
  refine ⟨_, hlen, hsum, hcount, ?_⟩
  have h0 := histCounts_nonneg c.alpha (histEdges m)
  have hpos : ∃ x ∈ histCounts c.alpha (histEdges m), 0 < x := by
    by_contra hno
    push Not at hno
    have h1 : (histCounts c.alpha (histEdges m)).sum ≤ 0 := by
      have : ∀ l : List ℝ, (∀ x ∈ l, x ≤ 0) → l.sum ≤ 0 := by
        intro l
        induction l with
        | nil => simp
        | cons x l ih =>
          intro hl
          rw [List.sum_cons]
          have := hl x (by simp)
          have := ih fun y hy => hl y (by simp [hy])
          linarith
      exact this _ hno
    rw [hsum] at h1
    have : 0 < c.alpha.length := List.length_pos_iff.2 hne
    have : (0 : ℝ) < c.alpha.length := by exact_mod_cast this
    linarith
  obtain ⟨wmax, hwm, hwp, hle, hh⟩ := roseHeights_spec _ h0 hpos
  refine ⟨wmax, hwm, hwp, hle, ?_, ?_⟩
  · intro i
    have : 0 ≤ (histCounts c.alpha (histEdges m)).getD i 0 := by
      rw [List.getD_eq_getElem?_getD]
      cases hg : (histCounts c.alpha (histEdges m))[i]? with
      | none => simp
      | some x => exact h0 x (List.mem_of_getElem? hg)
    rw [sq_sqrt (by positivity)]
    field_simp
  obtain ⟨cfg, d1, d2, cfg', d3, d4, d5, hc, h1, h2, h3, h4, h5, rfl⟩ := circPlot_ok h
  obtain ⟨cfg0, hc0, hrose, hwidth⟩ := mergeDicts_bins m
  rw [Option.getD_some, hc0] at hc
  cases hc
  obtain ⟨beta, w, hs, width, hb, hh', hwd, hmem⟩ := plotRose_bars hrose (by simp [truthy]) h2
  unfold roseBins at hb
  rw [hg] at hb
  simp only [Bool.false_eq_true, if_false, subItem, item, dget, if_true, Except.bind, roseEdges] at hb
  rw [if_neg (by omega)] at hb
  simp only [Except.map, Int.toNat_natCast, Except.ok.injEq, Prod.mk.injEq] at hb
  obtain ⟨hb1, hb2⟩ := hb
  subst hb2
  rw [hh] at hh'
  cases hh'
  have hbl : beta.length = m := by
    rw [← hb1]; simp [histEdges]
  have hbz : beta.zip ((histCounts c.alpha (histEdges m)).map fun x => some (sqrt (x / wmax))) =
      (List.range m).map fun i : ℕ => (((i : ℝ) + 1 / 2) * (2 * π / m),
        some (sqrt ((histCounts c.alpha (histEdges m)).getD i 0 / wmax))) := by
    apply List.ext_getElem
    · simp [hbl, hlen]
    · intro i hi1 hi2
      have hi : i < m := by simpa using hi2
      have hbi : beta[i]'(by omega) = ((i : ℝ) + 1 / 2) * (2 * π / m) := by
        subst hb1
        simp only [List.getElem_zipWith, histEdges, List.getElem_map, List.getElem_range, List.getElem_tail]
        push_cast
        ring
      simp only [List.getElem_zip, List.getElem_map, List.getElem_range, hbi]
      rw [List.getD_eq_getElem?_getD, List.getElem?_eq_getElem (by omega), Option.getD_some]
  rw [hwidth, Option.getD_none, hbl] at hwd
  subst hwd
  rw [hbz] at hmem
  simp only [List.mem_append]
  exact .inl (.inl (.inl (.inr hmem)))

/-- The default number of bins is 12. -/
theorem C125_rose_default (c : CircularObj) (unit : String) (mx : Option (List ℝ → List ℝ)) :
    circPlot c unit mx none = circPlot c unit mx (some (binsConfig 12)) := by
  unfold circPlot
  rw [Option.getD_none, Option.getD_some, mergeDicts_nil]
  have : mergeDicts defaultPlotConfig (binsConfig 12) = .ok defaultPlotConfig := by
    simp [mergeDicts, binsConfig, mergeItems, mergeSub, defaultPlotConfig, dget, dset, Except.bind]
  rw [this]

example : ∃ draws, circPlot plotExample "degree" none (some (binsConfig (12 : ℕ))) = .ok draws := by
  have := C125_rose_default plotExample "degree" none
  obtain ⟨d, hd⟩ := plotExample_works "degree"
  exact ⟨d, by rw [← hd, this]; rfl⟩

/-! ## the arcs of the confidence intervals -/

/-- The interval of the mean is drawn as the arc that runs counter-clockwise from its lower to its upper end. -/
theorem C125_arc (c : CircularObj) (unit : String) (mx : Option (List ℝ → List ℝ)) (draws : List Draw)
    (h : circPlot c unit mx none = .ok draws) (lb ub : ℝ) (hci : c.meanCi = some (lb, ub)) (hlb : 0 ≤ lb)
    (hlb' : lb < 2 * π) (hub : 0 ≤ ub) (hub' : ub < 2 * π) :
    ∃ L, 0 < L ∧ L ≤ 2 * π ∧ SameDir (lb + L) ub ∧
      Draw.curve "mean interval" ((List.range 50).map fun i : ℕ => (some (lb + i / 49 * L), c.r)) ∈ draws ∧
      Draw.cap "mean" (some lb) c.r ∈ draws ∧ Draw.cap "mean" (some (lb + L)) c.r ∈ draws := by
  obtain ⟨h1, h2, h3⟩ := arc_length lb ub hlb hlb' hub hub'
  have := default_mean h
  rw [hci, arcDraws_eq] at this
  exact ⟨_, h1, h2, h3, this _ (by simp), this _ (by simp), this _ (by simp)⟩

/-- An interval `(μ - d, μ + d)` around the mean, its ends reduced to the circle, is drawn as the arc of length
`2 d` whose middle is the direction `μ`. -/
theorem C125_arc_middle (c : CircularObj) (unit : String) (mx : Option (List ℝ → List ℝ)) (draws : List Draw)
    (h : circPlot c unit mx none = .ok draws) (lb ub μ d : ℝ) (hci : c.meanCi = some (lb, ub)) (hlb : 0 ≤ lb)
    (hlb' : lb < 2 * π) (hub : 0 ≤ ub) (hub' : ub < 2 * π) (hd : 0 < d) (hd' : d < π) (h1 : SameDir lb (μ - d))
    (h2 : SameDir ub (μ + d)) :
    Draw.curve "mean interval" ((List.range 50).map fun i : ℕ => (some (lb + i / 49 * (2 * d)), c.r)) ∈ draws ∧
      SameDir (lb + 2 * d / 2) μ := by
  obtain ⟨L, hL, hL', h3, hm, -⟩ := C125_arc c unit mx draws h lb ub hci hlb hlb' hub hub'
  obtain ⟨rfl, h4⟩ := arc_middle lb ub μ d hd hd' h1 h2 L hL hL' h3
  exact ⟨hm, h4⟩

/-- An interval whose two ends coincide is drawn as the whole circle. -/
theorem C125_arc_degenerate (c : CircularObj) (unit : String) (mx : Option (List ℝ → List ℝ)) (draws : List Draw)
    (h : circPlot c unit mx none = .ok draws) (b : ℝ) (hci : c.meanCi = some (b, b)) :
    Draw.curve "mean interval" ((List.range 50).map fun i : ℕ => (some (b + i / 49 * (2 * π)), c.r)) ∈ draws := by
  have := default_mean h
  rw [hci, arcDraws_eq] at this
  have := this (Draw.curve "mean interval" ((List.range 50).map fun i : ℕ =>
    (some (b + i / 49 * ((if b < b then b else b + 2 * π) - b)), c.r))) (by simp)
  rwa [if_neg (lt_irrefl b), add_sub_cancel_left] at this

/-- For axial data whose interval, for the doubled angles, runs from `lb` over zero to `ub` and so has the length
`ub + 2π - lb`, the arc drawn is not half as long, but half as long plus half the circle. -/
theorem C125_arc_axial (a : AxialObj) (unit : String) (mx : Option (List ℝ → List ℝ)) (draws : List Draw)
    (h : circPlot (axialPlotObj a) unit mx none = .ok draws) (lb ub : ℝ) (hci : a.meanCi = some (lb / 2, ub / 2))
    (hw : ub < lb) :
    Draw.curve "mean interval" ((List.range 50).map fun i : ℕ =>
      (some (lb / 2 + i / 49 * ((ub + 2 * π - lb) / 2 + π)), a.base.r)) ∈ draws := by
  have := default_mean h
  rw [show (axialPlotObj a).meanCi = some (lb / 2, ub / 2) from hci, arcDraws_eq] at this
  have := this (Draw.curve "mean interval" ((List.range 50).map fun i : ℕ =>
    (some (lb / 2 + i / 49 * ((if lb / 2 < ub / 2 then ub / 2 else ub / 2 + 2 * π) - lb / 2)), a.base.r)))
    (List.mem_cons_of_mem _ List.mem_cons_self)
  rw [if_neg (by linarith), show ub / 2 + 2 * π - lb / 2 = (ub + 2 * π - lb) / 2 + π by ring] at this
  exact this

example : ∃ draws, circPlot plotExample "degree" none none = .ok draws ∧
    Draw.curve "mean interval" ((List.range 50).map fun i : ℕ => (some (6 + i / 49 * (2 * π - 11 / 2)), 0)) ∈ draws := by
  obtain ⟨d, hd⟩ := plotExample_works "degree"
  refine ⟨d, hd, ?_⟩
  have hp := pi_gt_three
  have hp' := pi_gt_d2
  have := (C125_arc_middle plotExample "degree" none d hd 6 (1 / 2) (π + 13 / 4) (π - 11 / 4) rfl (by norm_num)
    (by linarith) (by norm_num) (by linarith) (by linarith) (by linarith) ⟨0, by simp; ring⟩
    ⟨-1, by push_cast; ring⟩).1
  rw [show 2 * (π - 11 / 4) = 2 * π - 11 / 2 by ring] at this
  exact this

/-! ## hours -/

/-- Data in hours: the label `h:00` stands where 24 hours make the circle, which is the place of the data value `h` exactly
if the full cycle is 24 (or `h` is 0). -/
theorem C125_hours (c : CircularObj) (mx : Option (List ℝ → List ℝ)) (config : Option Dict) (draws : List Draw)
    (h : circPlot c "hour" mx config = .ok draws) (hk : 0 < c.fullCycle) :
    ∃ major minor, Draw.hours major minor ∈ draws ∧ major.length = min 8 ⌈c.fullCycle / 3⌉₊ ∧
      ∀ p ∈ major, p.1 = data2rad p.2 24 ∧ (p.1 = data2rad p.2 c.fullCycle ↔ p.2 = 0 ∨ c.fullCycle = 24) := by
  obtain ⟨cfg, d1, d2, cfg', d3, d4, d5, hc, h1, h2, h3, h4, h5, rfl⟩ := circPlot_ok h
  unfold plotFrame at h5
  obtain ⟨_, _, h5⟩ := except_bind_ok h5
  obtain ⟨_, _, h5⟩ := except_bind_ok h5
  obtain ⟨_, _, h5⟩ := except_bind_ok h5
  obtain ⟨_, _, h5⟩ := except_bind_ok h5
  obtain ⟨_, _, h5⟩ := except_bind_ok h5
  obtain ⟨_, _, h5⟩ := except_bind_ok h5
  obtain ⟨_, _, h5⟩ := except_bind_ok h5
  obtain ⟨_, _, h5⟩ := except_bind_ok h5
  obtain ⟨_, _, h5⟩ := except_bind_ok h5
  obtain ⟨_, _, h5⟩ := except_bind_ok h5
  obtain ⟨_, _, h5⟩ := except_map_ok h5
  refine ⟨((List.range 8).map fun i : ℕ => (i : ℝ) * (2 * π / 8)).zip
    ((List.range ⌈c.fullCycle / 3⌉₊).map fun i : ℕ => 3 * (i : ℝ)),
    (List.range 24).map fun i : ℕ => (i : ℝ) * (2 * π / 24), ?_, by simp, ?_⟩
  · rw [← h5]
    simp
  · intro p hp
    obtain ⟨i, hi, rfl⟩ := List.getElem_of_mem hp
    simp only [List.getElem_zip, List.getElem_map, List.getElem_range, data2rad]
    have hpi := pi_pos
    constructor
    · ring
    · constructor
      · intro he
        by_cases h0 : (3 * (i : ℝ)) = 0
        · exact .inl h0
        · refine .inr ?_
          have hi0 : (i : ℝ) ≠ 0 := fun h => h0 (by rw [h]; ring)
          field_simp at he
          linarith
      · rintro (h0 | h0)
        · have hi0 : (i : ℝ) = 0 := by linarith
          rw [hi0]; simp
        · rw [h0]; ring

example : ∃ draws, circPlot { plotExample with fullCycle := 12 } "hour" none none = .ok draws :=
  default_works _ "hour" none rfl (by simp [plotExample]) (π / 2) rfl _ rfl

/-! ## points outside the axes -/

/-- Data with resultant length zero and a tie: by default a point lies outside the limits of the radial axis, which are
set from the density curve alone. -/
theorem C125_points_cut (c : CircularObj) (unit : String) (mx : Option (List ℝ → List ℝ)) (draws : List Draw)
    (hg : c.grouped = false) (hr : c.r = 0) (h : circPlot c unit mx none = .ok draws) (u : ℝ)
    (hu : 2 ≤ (c.alpha.map round3).countP fun a => decide (a = u)) :
    ∃ pts hi, Draw.scatter pts ∈ draws ∧ Draw.ylim hi ∈ draws ∧ ∃ p ∈ pts, p.1 = u ∧ hi < p.2 := by
  obtain ⟨cfg, d1, d2, cfg', d3, d4, d5, hc, h1, h2, h3, h4, h5, rfl⟩ := circPlot_ok h
  rw [Option.getD_none, mergeDicts_nil] at hc
  cases hc
  rw [hg] at h1
  simp only [Bool.false_eq_true, if_false] at h1
  have hne : scatterCounts c.alpha ≠ [] := by
    intro h0
    have hmem : u ∈ scatterAngles c.alpha := by
      rw [mem_scatterAngles]
      obtain ⟨a, ha, hau⟩ := List.countP_pos_iff.1 (by omega : 0 < (c.alpha.map round3).countP fun a => decide (a = u))
      simp only [decide_eq_true_eq] at hau
      exact hau ▸ ha
    unfold scatterCounts at h0
    rw [List.map_eq_nil_iff] at h0
    rw [h0] at hmem
    simp at hmem
  have hmax : maxL ((kdeGrid.map fun _ => (0 : ℝ)).map fun y => y + 1.05) = some 1.05 := by
    rw [maxL_eq_some_iff]
    constructor
    · refine List.mem_map.2 ⟨0, List.mem_map.2 ⟨0, ?_, rfl⟩, by norm_num⟩
      exact List.mem_map.2 ⟨0, by simp, by simp⟩
    · intro x hx
      obtain ⟨y, hy, rfl⟩ := List.mem_map.1 hx
      obtain ⟨z, hz, rfl⟩ := List.mem_map.1 hy
      norm_num
  have hun : plotUngrouped c mx defaultPlotConfig = .ok
      [.scatter (scatterPts 1 true c.alpha), .stored kdeGrid (kdeGrid.map fun _ => 0),
        .curve "density" ((kdeGrid.map some).zip ((kdeGrid.map fun _ => (0 : ℝ)).map fun y => y + 1.05)),
        .ylim (1.05 + 0)] := by
    simp only [plotUngrouped, item, defaultPlotConfig, dget, String.reduceEq, if_false, if_true, Except.bind, subItem,
      asNum, hne, truthy, plotDensity, subGet, Option.getD_some, Option.getD_none, hr, smoothParam_zero, plotKde,
      plotYlim, limitOf, hmax, Except.map, Int.cast_one, List.isEmpty_cons, Bool.not_false]
  rw [hun] at h1
  cases h1
  refine ⟨scatterPts 1 true c.alpha, 1.05 + 0, by simp, by simp, ?_⟩
  have hf := scatterPts_filter 1 true c.alpha u
  have hm : (u, (1 : ℝ) + 0.05 + 0.05 * ((1 : ℕ) : ℝ)) ∈
      (scatterPts 1 true c.alpha).filter (fun p => decide (p.1 = u)) := by
    rw [hf]
    refine List.mem_map.2 ⟨1, List.mem_range.2 (by omega), by simp⟩
  exact ⟨_, List.mem_of_mem_filter hm, rfl, by norm_num⟩

example : ∃ draws pts hi, circPlot plotExample "degree" none none = .ok draws ∧ Draw.scatter pts ∈ draws ∧
    Draw.ylim hi ∈ draws ∧ ∃ p ∈ pts, p.1 = 0 ∧ hi < p.2 := by
  obtain ⟨d, hd⟩ := plotExample_works "degree"
  have h0 : round3 0 = 0 := by simp [round3, roundEven]
  obtain ⟨pts, hi, h⟩ := C125_points_cut plotExample "degree" none d rfl rfl hd 0 (by
    simp only [plotExample, List.map_cons, h0, List.countP_cons, decide_true, if_true]
    omega)
  exact ⟨d, pts, hi, hd, h⟩

/-! ## which plots fail -/

lemma untouched_item {user cfg : Dict} (hu : (user.map Prod.fst).Nodup)
    (h : mergeDicts defaultPlotConfig user = .ok cfg) {k : String} (hk : Untouched user k) :
    dget cfg k = dget defaultPlotConfig k := by
  have := C124_merged _ _ _ hu h k
  rcases hk with hk | hk <;> rw [hk] at this
  · exact this
  · exact this.2

/-- An object without an interval of the median — every grouped one, and every one whose median is undefined —
cannot be plotted unless the configuration says something about the median. -/
theorem C126_median (data : List ℝ) (w edges : Option (List ℝ)) (unit : String) (fc rot : Option ℝ)
    (kw : Option (Option String)) (opts : MedianOpts) (e : Env) (c : CircularObj)
    (hc : circular data w edges unit fc rot kw opts e = .ok c) (hg : c.grouped = true ∨ c.median = none)
    (mx : Option (List ℝ → List ℝ)) (user : Dict) (hu : (user.map Prod.fst).Nodup) (hm : Untouched user "median") :
    ∃ err, circPlot c unit mx (some user) = .error err := by
  have hci := (grouped_medianCi hc).1 hg
  cases hp : circPlot c unit mx (some user) with
  | error err => exact ⟨err, rfl⟩
  | ok draws =>
    exfalso
    obtain ⟨cfg, d1, d2, cfg', d3, d4, d5, hc, h1, h2, h3, h4, h5, rfl⟩ := circPlot_ok hp
    have hmed : item cfg' "median" = .ok (.dict [("color", .str "black"), ("linestyle", .str "dotted"),
        ("ci", .bool true)]) := by
      unfold item
      rw [plotRose_get h2 _ (by decide), untouched_item hu hc hm]
      rfl
    unfold plotMedian at h4
    rw [hmed] at h4
    simp only [Except.bind, truthy, subItem, item, dget, String.reduceEq, if_false, if_true, List.isEmpty_cons,
      Bool.not_false, hci] at h4
    split at h4 <;> cases h4

/-- A grouped object cannot be plotted, either, unless the configuration says something about the rose diagram or
the density, or contains the undocumented entry `rlim_max`. -/
theorem C126_grouped_density (c : CircularObj) (unit : String) (hg : c.grouped = true)
    (mx : Option (List ℝ → List ℝ)) (user : Dict) (hu : (user.map Prod.fst).Nodup) (hr : Untouched user "rose")
    (hd : Untouched user "density") (hl : Untouched user "rlim_max") :
    ∃ err, circPlot c unit mx (some user) = .error err := by
  cases hp : circPlot c unit mx (some user) with
  | error err => exact ⟨err, rfl⟩
  | ok draws =>
    exfalso
    obtain ⟨cfg, d1, d2, cfg', d3, d4, d5, hc, h1, h2, h3, h4, h5, rfl⟩ := circPlot_ok hp
    have hrose : item cfg "rose" = item defaultPlotConfig "rose" := by
      unfold item; rw [untouched_item hu hc hr]
    have hdens : item cfg "density" = item defaultPlotConfig "density" := by
      unfold item; rw [untouched_item hu hc hd]
    have hlim : item cfg "rlim_max" = .error .keyError := by
      unfold item; rw [untouched_item hu hc hl]; rfl
    unfold plotRose at h2
    rw [hrose, default_rose] at h2
    simp only [Except.bind, truthy, List.isEmpty_cons, Bool.not_false, if_true] at h2
    obtain ⟨⟨beta, w⟩, hb, h2⟩ := except_bind_ok h2
    obtain ⟨hs, hh, h2⟩ := except_bind_ok h2
    simp only [subItem, item, dget, String.reduceEq, if_false, if_true, Bool.false_eq_true] at h2
    obtain ⟨dens, hde, h2⟩ := except_map_ok h2
    unfold groupedDensity at hde
    rw [hdens, show item defaultPlotConfig "density" = .ok (.dict [("method", .str "nonparametric"),
      ("color", .str "black"), ("linestyle", .str "-")]) from rfl] at hde
    simp only [Except.bind, truthy, List.isEmpty_cons, Bool.not_false, hg, Bool.and_self, if_true] at hde
    split at hde
    · cases hde
    · rw [hlim] at hde
      cases hde

/-- The plot of a grouped object with the default configuration: the exceptions. -/
theorem C126_grouped_default (data : List ℝ) (w edges : Option (List ℝ)) (unit : String) (fc rot : Option ℝ)
    (kw : Option (Option String)) (opts : MedianOpts) (e : Env) (c : CircularObj)
    (hc : circular data w edges unit fc rot kw opts e = .ok c) (hg : c.grouped = true) :
    circPlot c unit none none = .error .attributeError ∧
      ∀ p, circPlot c unit (some p) none = .error .keyError := by
  have hw := (grouped_medianCi hc).2.2
  obtain ⟨m, hm, -⟩ := maxL_exists (l := c.w.map sqrt) (by simpa using hw)
  have hh : ∃ hs, roseHeights c.w = .ok hs := by
    unfold roseHeights; rw [hm]; exact ⟨_, rfl⟩
  obtain ⟨hs, hh⟩ := hh
  have hdens : item defaultPlotConfig "density" = .ok (.dict [("method", .str "nonparametric"),
      ("color", .str "black"), ("linestyle", .str "-")]) := rfl
  have hlim : item defaultPlotConfig "rlim_max" = .error .keyError := rfl
  have hrose : ∀ mx, plotRose c mx defaultPlotConfig =
      (groupedDensity c mx defaultPlotConfig).map fun dens =>
        (.bars (.num (2 * π / c.alpha.length)) (c.alpha.zip hs) :: ([] ++ dens), defaultPlotConfig) := by
    intro mx
    unfold plotRose
    rw [default_rose]
    simp only [Except.bind, truthy, List.isEmpty_cons, Bool.not_false, if_true, roseBins, hg, hh, subItem, item, dget,
      String.reduceEq, if_false, Bool.false_eq_true]
    rfl
  constructor
  · unfold circPlot
    rw [Option.getD_none, mergeDicts_nil]
    simp only [Except.bind, hg, if_true, hrose, groupedDensity, hdens, truthy, List.isEmpty_cons, Bool.not_false,
      Bool.and_self, Except.map]
  · intro p
    unfold circPlot
    rw [Option.getD_none, mergeDicts_nil]
    simp only [Except.bind, hg, if_true, hrose, groupedDensity, hdens, truthy, List.isEmpty_cons, Bool.not_false,
      Bool.and_self, Except.map, hlim]

example (e : Env) : ∃ c, circular [-10, 10] none (some (histEdges 4)) "degree" none none none {} e = .ok c ∧
    circPlot c "degree" none none = .error .attributeError := by
  obtain ⟨c, hc, -⟩ := C96_angle_lost e
  refine ⟨c, hc, (C126_grouped_default _ _ _ _ _ _ _ _ _ c hc ?_).1⟩
  obtain ⟨k, alpha, p, -, -, hpr, hcp⟩ := circular_ok hc
  rw [hcp.grouped]
  unfold prepare at hpr
  simp only at hpr
  split at hpr
  · cases hpr
  · cases hpr; rfl

/-- With the density and the median switched off, every grouped object can be plotted: its bars are drawn at its
angles, and nothing else but the mean and the frame. -/
theorem C126_grouped_works (data : List ℝ) (w edges : Option (List ℝ)) (unit : String) (fc rot : Option ℝ)
    (kw : Option (Option String)) (opts : MedianOpts) (e : Env) (c : CircularObj)
    (hc : circular data w edges unit fc rot kw opts e = .ok c) (hg : c.grouped = true)
    (mx : Option (List ℝ → List ℝ)) :
    ∃ draws hs, circPlot c unit mx (some [("density", .bool false), ("median", .bool false)]) = .ok draws ∧
      roseHeights c.w = .ok hs ∧
      Draw.bars (.num (2 * π / c.alpha.length)) (c.alpha.zip hs) ∈ draws ∧
      Draw.curve "mean" [(some 0, 0), (c.mean, c.r)] ∈ draws := by
  have hw := (grouped_medianCi hc).2.2
  obtain ⟨m, hm, -⟩ := maxL_exists (l := c.w.map sqrt) (by simpa using hw)
  have hh : ∃ hs, roseHeights c.w = .ok hs := by
    unfold roseHeights; rw [hm]; exact ⟨_, rfl⟩
  obtain ⟨hs, hh⟩ := hh
  simp [circPlot, mergeDicts, mergeItems, defaultPlotConfig, dget, dset, Except.bind, item, hg, plotRose, truthy,
    roseBins, hh, subItem, groupedDensity, Except.map, plotMean, subGet, plotMedian, plotFrame, asList]

/-- Switching the points off is refused for ungrouped data. -/
theorem C126_scatter (c : CircularObj) (unit : String) (mx : Option (List ℝ → List ℝ)) (hg : c.grouped = false) :
    circPlot c unit mx (some [("scatter", .bool false)]) = .error .typeError := by
  simp [circPlot, mergeDicts, mergeItems, defaultPlotConfig, dget, dset, Except.bind, item, hg, plotUngrouped,
    subItem]

/-- Ungrouped data with a median can be plotted with the default configuration. -/
theorem C126_works (data : List ℝ) (unit : String) (fc rot : Option ℝ)
    (kw : Option (Option String)) (opts : MedianOpts) (e : Env) (c : CircularObj)
    (hc : circular data none none unit fc rot kw opts e = .ok c) (m : ℝ) (hmed : c.median = some [m])
    (mx : Option (List ℝ → List ℝ)) : ∃ draws, circPlot c unit mx none = .ok draws := by
  obtain ⟨h1, h2, hw⟩ := grouped_medianCi hc
  have hg : c.grouped = false ∧ c.alpha ≠ [] := by
    obtain ⟨k, alpha, p, -, -, hpr, hcp⟩ := circular_ok hc
    simp only [prepare, Except.ok.injEq] at hpr
    subst hpr
    refine ⟨hcp.grouped, ?_⟩
    rw [hcp.alpha]
    rw [hcp.w] at hw
    intro h0
    apply hw
    simp only at h0 ⊢
    rw [h0]; rfl
  obtain ⟨q, hq⟩ := Option.ne_none_iff_exists'.1 (h2 hg.1 m hmed)
  exact default_works c unit mx hg.1 hg.2 m hmed q hq

end Verif.Props
