import Verif.Props.Plot

/-! # Property C125, continued: the lines, the median's arc, the counts on the bars, and a density given by the user -/

set_option autoImplicit false

namespace Verif.Props

open Real Verif.Spec

/-- The lines: by default the mean is a line from the centre to the mean direction, as long as the mean resultant length (with no
angle when there is no mean), a single median a line to that direction of length 0.95. -/
theorem C125_lines (c : CircularObj) (unit : String) (mx : Option (List ℝ → List ℝ)) (draws : List Draw)
    (h : circPlot c unit mx none = .ok draws) :
    Draw.curve "mean" [(some 0, 0), (c.mean, c.r)] ∈ draws ∧
      ∀ m, c.median = some [m] → Draw.curve "median" [(some 0, 0), (some m, 0.95)] ∈ draws := by
  refine ⟨default_mean h _ (by simp), fun m hm => ?_⟩
  obtain ⟨cfg, d1, d2, cfg', d3, d4, d5, hc, h1, h2, h3, h4, h5, rfl⟩ := circPlot_ok h
  rw [Option.getD_none, mergeDicts_nil] at hc
  cases hc
  have hcfg : cfg' = defaultPlotConfig := plotRose_cfg default_rose (by simp [truthy]) h2
  subst hcfg
  simp only [plotMedian, item, defaultPlotConfig, dget, Except.bind, truthy, subItem, hm, medianLine, String.reduceEq, if_false, if_true,
    List.isEmpty_cons, Bool.not_false] at h4
  cases hq : c.medianCi with
  | none => rw [hq] at h4; cases h4
  | some q =>
    rw [hq] at h4
    cases h4
    simp

/-- The interval of the median is drawn as the arc at radius 0.95 that runs counter-clockwise from its lower to its upper end. -/
theorem C125_arc_median (c : CircularObj) (unit : String) (mx : Option (List ℝ → List ℝ)) (draws : List Draw)
    (h : circPlot c unit mx none = .ok draws) (lb ub cover : ℝ) (hci : c.medianCi = some (some (lb, ub), cover)) (hlb : 0 ≤ lb)
    (hlb' : lb < 2 * π) (hub : 0 ≤ ub) (hub' : ub < 2 * π) :
    ∃ L, 0 < L ∧ L ≤ 2 * π ∧ SameDir (lb + L) ub ∧
      Draw.curve "median interval" ((List.range 50).map fun i : ℕ => (some (lb + i / 49 * L), 0.95)) ∈ draws ∧
      Draw.cap "median" (some lb) 0.95 ∈ draws ∧ Draw.cap "median" (some (lb + L)) 0.95 ∈ draws := by
  obtain ⟨h1', h2', h3'⟩ := arc_length lb ub hlb hlb' hub hub'
  obtain ⟨cfg, d1, d2, cfg', d3, d4, d5, hc, h1, h2, h3, h4, h5, rfl⟩ := circPlot_ok h
  rw [Option.getD_none, mergeDicts_nil] at hc
  cases hc
  have hcfg : cfg' = defaultPlotConfig := plotRose_cfg default_rose (by simp [truthy]) h2
  subst hcfg
  simp only [plotMedian, item, defaultPlotConfig, dget, Except.bind, truthy, subItem, String.reduceEq, if_false, if_true,
    List.isEmpty_cons, Bool.not_false, hci] at h4
  cases hl : medianLine c.median with
  | error e => simp only [hl] at h4; cases h4
  | ok line =>
    simp only [hl] at h4
    rw [arcDraws_eq, show (1 : ℝ) - 0.05 = 0.95 by norm_num] at h4
    cases h4
    exact ⟨_, h1', h2', h3', by simp, by simp, by simp⟩

/-- The two theorems apply to an object with one median and an interval across zero. -/
example : ∃ c : CircularObj, ∃ draws, circPlot c "degree" none none = .ok draws ∧ c.median = some [1 / 4] ∧
    c.medianCi = some (some (6, 1 / 2), 0.95) :=
  let c : CircularObj := { plotExample with median := some [1 / 4], medianCi := some (some (6, 1 / 2), 0.95) }
  let h := default_works c "degree" none rfl (by simp [c, plotExample]) (1 / 4) rfl _ rfl
  ⟨c, h.choose, h.choose_spec, rfl, rfl⟩

/-- The configuration that asks for `m` bins with their counts. -/
def countsConfig (m : ℤ) : Dict := [("rose", .dict [("bins", .int m), ("counts", .bool true)])]

/-- Angle and number of the texts of a plot. -/
def textsOf (draws : List Draw) : List (ℝ × ℝ) :=
  draws.filterMap fun d => match d with
    | .text a _ _ v => some (a, v)
    | _ => none

lemma textsOf_append (a b : List Draw) : textsOf (a ++ b) = textsOf a ++ textsOf b := by simp [textsOf]

private lemma texts_ungrouped {c : CircularObj} {mx : Option (List ℝ → List ℝ)} {cfg : Dict} {d : List Draw}
    (h : plotUngrouped c mx cfg = .ok d) : ∀ x ∈ d, ∀ a y r v, x ≠ .text a y r v := by
  unfold plotUngrouped at h
  obtain ⟨out, ho, h⟩ := except_bind_ok h
  obtain ⟨sc, hs, h⟩ := except_bind_ok h
  obtain ⟨rv, hr, h⟩ := except_bind_ok h
  obtain ⟨r, hrn, h⟩ := except_bind_ok h
  split_ifs at h with hne
  obtain ⟨dens, hd, h⟩ := except_bind_ok h
  have hlim : ∀ radii extra lim, plotYlim cfg radii extra = .ok lim → ∀ a y r v, lim ≠ .text a y r v := by
    intro radii extra lim hl a y r v
    unfold plotYlim at hl
    obtain ⟨_, _, hl⟩ := except_bind_ok hl
    obtain ⟨l, _, hl⟩ := except_bind_ok hl
    unfold limitOf at hl
    split at hl
    · split at hl
      · cases hl
      · cases hl; simp
    · obtain ⟨_, _, hl⟩ := except_map_ok hl
      rw [← hl]; simp
  split_ifs at h with ht
  · obtain ⟨⟨x, f⟩, hx, h⟩ := except_bind_ok h
    obtain ⟨lim, hl, h⟩ := except_map_ok h
    rw [← h]
    intro d hd
    simp only [List.mem_cons, List.not_mem_nil, or_false] at hd
    rcases hd with rfl | rfl | rfl | rfl
    · simp
    · simp
    · simp
    · exact hlim _ _ _ hl
  · obtain ⟨lim, hl, h⟩ := except_map_ok h
    rw [← h]
    intro d hd
    simp only [List.mem_cons, List.not_mem_nil, or_false] at hd
    rcases hd with rfl | rfl
    · simp
    · exact hlim _ _ _ hl

private lemma texts_nil {d : List Draw} (h : ∀ x ∈ d, ∀ a y r v, x ≠ .text a y r v) : textsOf d = [] := by
  unfold textsOf
  rw [List.filterMap_eq_nil_iff]
  intro x hx
  cases x with
  | text a y r v => exact absurd rfl (h _ hx a y r v)
  | _ => rfl

private lemma texts_arc (name : String) (ci : Option (ℝ × ℝ)) (r : ℝ) : ∀ x ∈ arcDraws name ci r, ∀ a y r v, x ≠ .text a y r v := by
  intro x hx
  simp only [arcDraws, List.mem_cons, List.not_mem_nil, or_false] at hx
  rcases hx with rfl | rfl | rfl <;> simp

private lemma texts_mean {c : CircularObj} {cfg : Dict} {d : List Draw} (h : plotMean c cfg = .ok d) :
    ∀ x ∈ d, ∀ a y r v, x ≠ .text a y r v := by
  unfold plotMean at h
  obtain ⟨_, _, h⟩ := except_bind_ok h
  split_ifs at h
  · obtain ⟨_, _, h⟩ := except_bind_ok h
    obtain ⟨_, _, h⟩ := except_bind_ok h
    split_ifs at h
    · obtain ⟨_, _, h⟩ := except_map_ok h
      rw [← h]
      intro x hx
      rcases List.mem_cons.1 hx with rfl | hx
      · simp
      · exact texts_arc _ _ _ x hx
    · cases h; simp
  · cases h; simp

private lemma texts_median {c : CircularObj} {cfg : Dict} {d : List Draw} (h : plotMedian c cfg = .ok d) :
    ∀ x ∈ d, ∀ a y r v, x ≠ .text a y r v := by
  unfold plotMedian at h
  obtain ⟨_, _, h⟩ := except_bind_ok h
  split_ifs at h
  · obtain ⟨_, _, h⟩ := except_bind_ok h
    obtain ⟨line, hline, h⟩ := except_bind_ok h
    have hl : ∀ a y r v, line ≠ .text a y r v := by
      unfold medianLine at hline
      split at hline
      · cases hline; simp
      · cases hline; simp
      · cases hline
    obtain ⟨_, _, h⟩ := except_bind_ok h
    split_ifs at h
    · split at h
      · cases h
      · cases h
        intro x hx
        rcases List.mem_cons.1 hx with rfl | hx
        · exact hl
        · exact texts_arc _ _ _ x hx
    · cases h
      intro x hx
      rw [List.mem_singleton] at hx
      subst hx
      exact hl
  · cases h; simp

private lemma texts_frame {c : CircularObj} {unit : String} {cfg : Dict} {d : List Draw} (h : plotFrame c unit cfg = .ok d) :
    ∀ x ∈ d, ∀ a y r v, x ≠ .text a y r v := by
  unfold plotFrame at h
  obtain ⟨_, _, h⟩ := except_bind_ok h
  obtain ⟨_, _, h⟩ := except_bind_ok h
  obtain ⟨_, _, h⟩ := except_bind_ok h
  obtain ⟨_, _, h⟩ := except_bind_ok h
  obtain ⟨_, _, h⟩ := except_bind_ok h
  obtain ⟨_, _, h⟩ := except_bind_ok h
  obtain ⟨_, _, h⟩ := except_bind_ok h
  obtain ⟨_, _, h⟩ := except_bind_ok h
  obtain ⟨_, _, h⟩ := except_bind_ok h
  obtain ⟨_, _, h⟩ := except_bind_ok h
  obtain ⟨_, _, h⟩ := except_map_ok h
  rw [← h]
  intro x hx
  simp only [List.mem_append, List.mem_cons, List.not_mem_nil, or_false] at hx
  rcases hx with ((rfl | rfl) | hx) | hx
  · simp
  · simp
  · split_ifs at hx
    · rw [List.mem_singleton] at hx; subst hx; simp
    · simp at hx
  · split_ifs at hx
    · rw [List.mem_singleton] at hx; subst hx; simp
    · simp at hx

private lemma textsOf_rose (m : ℕ) (beta w : List ℝ) (hs : List (Option ℝ)) (hb : beta.length = m) (hw : w.length = m) (hh : hs.length = m) :
    textsOf (roseTexts beta w hs) = ((List.range m).filter fun i => decide (w.getD i 0 ≠ 0)).map fun i => (round3 (beta.getD i 0), w.getD i 0) := by
  induction m generalizing beta w hs with
  | zero =>
    rw [List.length_eq_zero_iff] at hb
    subst hb
    rfl
  | succ m ih =>
    obtain ⟨b, beta, rfl⟩ := List.exists_cons_of_length_eq_add_one hb
    obtain ⟨v, w, rfl⟩ := List.exists_cons_of_length_eq_add_one hw
    obtain ⟨y, hs, rfl⟩ := List.exists_cons_of_length_eq_add_one hh
    have := ih beta w hs (by simpa using hb) (by simpa using hw) (by simpa using hh)
    rw [List.range_succ_eq_map, List.filter_cons, List.filter_map]
    simp only [List.getD_cons_zero]
    have e : textsOf (roseTexts (b :: beta) (v :: w) (y :: hs)) = (if v ≠ 0 then [(round3 b, v)] else []) ++ textsOf (roseTexts beta w hs) := by
      unfold roseTexts
      rw [List.zip_cons_cons, List.zip_cons_cons, List.filterMap_cons]
      simp only
      split_ifs <;> simp_all [textsOf]
    rw [e, this]
    by_cases hv : v = 0
    · simp [hv, Function.comp_def, List.map_map]
    · simp [hv, Function.comp_def, List.map_map]

/-- The counts on the bars of the rose diagram, when asked for: one number for each bin that is not empty, in the middle of the bin
(rounded to three decimals), and the number is the count of the bin; nothing else is written. -/
theorem C125_counts (c : CircularObj) (unit : String) (mx : Option (List ℝ → List ℝ)) (m : ℕ) (hm : 0 < m)
    (draws : List Draw) (hg : c.grouped = false) (h : circPlot c unit mx (some (countsConfig m)) = .ok draws) :
    ∃ w : ℕ → ℕ, (∀ i < m, w i = c.alpha.countP fun a => decide ((i : ℝ) * (2 * π / m) ≤ a) &&
        (decide (a < ((i : ℝ) + 1) * (2 * π / m)) || (decide (i + 1 = m) && decide (a = ((i : ℝ) + 1) * (2 * π / m))))) ∧
      textsOf draws = ((List.range m).filter fun i => decide (w i ≠ 0)).map fun i : ℕ =>
        (round3 (((i : ℝ) + 1 / 2) * (2 * π / m)), (w i : ℝ)) := by
  obtain ⟨cfg, d1, d2, cfg', d3, d4, d5, hc, h1, h2, h3, h4, h5, rfl⟩ := circPlot_ok h
  rw [hg] at h1
  simp only [Bool.false_eq_true, if_false] at h1
  rw [textsOf_append, textsOf_append, textsOf_append, textsOf_append, texts_nil (texts_ungrouped h1), texts_nil (texts_mean h3),
    texts_nil (texts_median h4), texts_nil (texts_frame h5), List.nil_append, List.append_nil, List.append_nil, List.append_nil]
  have hrose : item cfg "rose" = .ok (.dict [("bins", .int m), ("counts", .bool true), ("color", .str "gray"),
      ("edgecolor", .str "black"), ("alpha", .num 0.5)]) := by
    simp only [Option.getD_some, mergeDicts, countsConfig, mergeItems, mergeSub, defaultPlotConfig, dget, dset, Except.bind, String.reduceEq,
      if_false, if_true] at hc
    cases hc
    simp [item, dget]
  unfold plotRose at h2
  rw [hrose] at h2
  simp only [Except.bind, truthy, List.isEmpty_cons, Bool.not_false, if_true] at h2
  unfold roseBins at h2
  rw [hg] at h2
  simp only [Bool.false_eq_true, if_false, subItem, item, dget, if_true, Except.bind, roseEdges, String.reduceEq] at h2
  rw [if_neg (by omega)] at h2
  simp only [Except.map, Int.toNat_natCast] at h2
  have hlen : (histCounts c.alpha (histEdges m)).length = m := by
    rw [histCounts_length]; simp [histEdges]
  cases hh : roseHeights (histCounts c.alpha (histEdges m)) with
  | error e => rw [hh] at h2; cases h2
  | ok hs =>
    have hsl : hs.length = m := by
      unfold roseHeights at hh
      split at hh
      · cases hh
      · cases hh; simp [hlen]
    rw [hh] at h2
    simp only at h2
    have hgd : ∃ dd, groupedDensity c mx cfg = .ok dd ∧ dd = [] := by
      cases hx : groupedDensity c mx cfg with
      | error e => rw [hx] at h2; cases h2
      | ok dd =>
        refine ⟨dd, rfl, ?_⟩
        unfold groupedDensity at hx
        obtain ⟨_, _, hx⟩ := except_bind_ok hx
        rw [hg] at hx
        simp only [Bool.false_and, Bool.false_eq_true, if_false] at hx
        cases hx; rfl
    obtain ⟨dd, hdd, rfl⟩ := hgd
    rw [hdd] at h2
    simp only [Except.ok.injEq, Prod.mk.injEq] at h2
    obtain ⟨h2, -⟩ := h2
    refine ⟨fun i => c.alpha.countP fun a => decide ((i : ℝ) * (2 * π / m) ≤ a) &&
        (decide (a < ((i : ℝ) + 1) * (2 * π / m)) || (decide (i + 1 = m) && decide (a = ((i : ℝ) + 1) * (2 * π / m)))), fun i _ => rfl, ?_⟩
    have hcount : ∀ i < m, (histCounts c.alpha (histEdges m)).getD i 0 = ((c.alpha.countP fun a =>
        decide ((i : ℝ) * (2 * π / m) ≤ a) && (decide (a < ((i : ℝ) + 1) * (2 * π / m)) ||
          (decide (i + 1 = m) && decide (a = ((i : ℝ) + 1) * (2 * π / m)))) : ℕ) : ℝ) := by
      intro i hi
      rw [histCounts_getD c.alpha (histEdges m) i (by simp [histEdges, hi])]
      simp [histEdges]
    rw [← h2, List.append_nil]
    show textsOf (roseTexts _ _ _) = _
    rw [textsOf_rose m _ _ _ (by simp [histEdges]) hlen hsl]
    have e1 : ((List.range m).filter fun i => decide ((histCounts c.alpha (histEdges m)).getD i 0 ≠ 0)) = (List.range m).filter fun i : ℕ =>
        decide ((c.alpha.countP fun a => decide ((i : ℝ) * (2 * π / m) ≤ a) && (decide (a < ((i : ℝ) + 1) * (2 * π / m)) ||
          (decide (i + 1 = m) && decide (a = ((i : ℝ) + 1) * (2 * π / m))))) ≠ 0) := by
      refine List.filter_congr fun i hi => ?_
      simp only [hcount i (List.mem_range.1 hi), ne_eq, Nat.cast_eq_zero]
    rw [e1]
    refine List.map_congr_left fun i hi => ?_
    have him : i < m := List.mem_range.1 (List.mem_filter.1 hi).1
    rw [hcount i him, List.getD_eq_getElem?_getD, List.getElem?_eq_getElem (by simp [histEdges, him])]
    simp only [Option.getD_some, List.getElem_zipWith, histEdges, List.getElem_map, List.getElem_range, List.getElem_tail]
    congr 2
    push_cast
    ring

private lemma round3_near {b : ℝ} (hb : 0 ≤ b) : |round3 b - b| ≤ 1 / 2000 ∧ 0 ≤ round3 b := by
  have h := roundEven_bound (b * 10 ^ 3)
  unfold round3
  refine ⟨?_, div_nonneg (by exact_mod_cast roundEven_nonneg (by positivity)) (by norm_num)⟩
  rw [abs_le] at h ⊢
  constructor <;> linarith

private lemma kde_some (alpha : List ℝ) (h : Option ℝ) : ∃ x f, plotKde alpha h = (x, f) ∧ f ≠ [] := by
  cases h with
  | none => exact ⟨_, _, rfl, by simp [kdeGrid]⟩
  | some h => exact ⟨_, _, rfl, by simp [kdeGrid]⟩

private lemma heights_twelve (alpha : List ℝ) : ∃ hs, roseHeights (histCounts alpha (histEdges 12)) = .ok hs := by
  have hlen : (histCounts alpha (histEdges 12)).length = 12 := by
    rw [histCounts_length]; simp [histEdges]
  obtain ⟨m, hm, -⟩ := maxL_exists (l := (histCounts alpha (histEdges 12)).map sqrt) (by
    intro h0
    have := congrArg List.length h0
    simp [hlen] at this)
  unfold roseHeights
  rw [hm]
  exact ⟨_, rfl⟩

private lemma scatter_some : scatterCounts plotExample.alpha ≠ [] := by
  intro h0
  unfold scatterCounts at h0
  rw [List.map_eq_nil_iff] at h0
  have := (mem_scatterAngles plotExample.alpha (round3 0)).2 (by simp [plotExample])
  rw [h0] at this
  simp at this

/-- The theorem applies: a plot of four observations with counts on twelve bars. -/
example : ∃ draws, circPlot plotExample "degree" none (some (countsConfig (12 : ℕ))) = .ok draws := by
  obtain ⟨x, f, hkd, hf⟩ := kde_some plotExample.alpha (smoothParam plotExample.r plotExample.n.toNat)
  obtain ⟨mx', hmx, -⟩ := maxL_exists (l := f.map fun y => y + 1.05) (by simpa using hf)
  obtain ⟨hs, hh⟩ := heights_twelve plotExample.alpha
  have hsc := scatter_some
  unfold circPlot
  simp [countsConfig, mergeDicts, mergeItems, mergeSub, dset, defaultPlotConfig, dget, Except.bind, item, hsc, plotUngrouped, subItem, asNum, truthy, plotDensity,
    subGet, hkd, plotYlim, limitOf, hmx, Except.map, plotRose, roseBins, roseEdges, hh, groupedDensity, plotMean,
    plotMedian, medianLine, plotFrame, asList, show plotExample.grouped = false from rfl, show plotExample.median = some [π / 2] from rfl,
    show plotExample.medianCi = some (none, 0.95) from rfl]

/-- The rotation handed over with a count is the angle itself or the angle plus `π`, so a number below 8; the drawing library reads
it in degrees, so that the counts are written almost horizontally wherever they are. -/
theorem C125_counts_rotation (c : CircularObj) (unit : String) (mx : Option (List ℝ → List ℝ)) (m : ℕ) (hm : 0 < m)
    (draws : List Draw) (hg : c.grouped = false) (h : circPlot c unit mx (some (countsConfig m)) = .ok draws)
    (a : ℝ) (y : Option ℝ) (rotation number : ℝ) (ht : Draw.text a y rotation number ∈ draws) :
    (rotation = a ∨ rotation = a + π) ∧ 0 ≤ rotation ∧ rotation < 8 := by
  obtain ⟨w, -, hw⟩ := C125_counts c unit mx m hm draws hg h
  have ha : (a, number) ∈ textsOf draws := List.mem_filterMap.2 ⟨_, ht, rfl⟩
  rw [hw, List.mem_map] at ha
  obtain ⟨i, hi, he⟩ := ha
  have him : i < m := List.mem_range.1 (List.mem_filter.1 hi).1
  have ha' : a = round3 (((i : ℝ) + 1 / 2) * (2 * π / m)) := (congrArg Prod.fst he).symm
  have hmR : (0 : ℝ) < m := by exact_mod_cast hm
  have hiR : (i : ℝ) + 1 ≤ m := by exact_mod_cast him
  have hb0 : 0 ≤ ((i : ℝ) + 1 / 2) * (2 * π / m) := by positivity
  have hb1 : ((i : ℝ) + 1 / 2) * (2 * π / m) ≤ 2 * π := by
    rw [mul_div_assoc', div_le_iff₀ hmR]
    nlinarith [pi_pos]
  have hround : |a - ((i : ℝ) + 1 / 2) * (2 * π / m)| ≤ 1 / 2000 ∧ 0 ≤ a := by
    rw [ha']
    exact round3_near hb0
  have hp := pi_gt_d2
  have hp' := pi_lt_d2
  have hau := (abs_le.1 hround.1).2
  have hrot : ∀ beta w hs, Draw.text a y rotation number ∈ roseTexts beta w hs →
      rotation = if π / 2 ≤ a ∧ a < 3 * π / 2 then a + π else a := by
    intro beta w hs hmem
    unfold roseTexts at hmem
    rw [List.mem_filterMap] at hmem
    obtain ⟨⟨b, v, y'⟩, -, hmem⟩ := hmem
    simp only at hmem
    by_cases hv : v ≠ 0
    · rw [if_pos hv] at hmem
      simp only [Option.some.injEq, Draw.text.injEq] at hmem
      rw [← hmem.1, hmem.2.2.1.symm]
    · rw [if_neg hv] at hmem
      cases hmem
  have hr : rotation = if π / 2 ≤ a ∧ a < 3 * π / 2 then a + π else a := by
    obtain ⟨cfg, d1, d2, cfg', d3, d4, d5, hc, h1, h2, h3, h4, h5, rfl⟩ := circPlot_ok h
    rw [hg] at h1
    simp only [Bool.false_eq_true, if_false] at h1
    simp only [List.mem_append] at ht
    rcases ht with (((ht | ht) | ht) | ht) | ht
    · exact absurd rfl (texts_ungrouped h1 _ ht _ _ _ _)
    · unfold plotRose at h2
      obtain ⟨rose, _, h2⟩ := except_bind_ok h2
      split_ifs at h2
      · obtain ⟨⟨beta, w'⟩, _, h2⟩ := except_bind_ok h2
        obtain ⟨hs, _, h2⟩ := except_bind_ok h2
        obtain ⟨_, _, h2⟩ := except_bind_ok h2
        obtain ⟨cn, _, h2⟩ := except_bind_ok h2
        obtain ⟨dd, hdd, h2⟩ := except_map_ok h2
        have hdd' : dd = [] := by
          unfold groupedDensity at hdd
          obtain ⟨_, _, hx⟩ := except_bind_ok hdd
          rw [hg] at hx
          simp only [Bool.false_and, Bool.false_eq_true, if_false] at hx
          cases hx; rfl
        subst hdd'
        have h2' := congrArg Prod.fst h2
        simp only at h2'
        rw [← h2', List.append_nil, List.mem_cons] at ht
        rcases ht with ht | ht
        · cases ht
        · split_ifs at ht
          · exact hrot _ _ _ ht
          · simp at ht
      · obtain ⟨radius, _, h2⟩ := except_bind_ok h2
        split at h2
        · cases h2; simp at ht
        · cases h2
    · exact absurd rfl (texts_mean h3 _ ht _ _ _ _)
    · exact absurd rfl (texts_median h4 _ ht _ _ _ _)
    · exact absurd rfl (texts_frame h5 _ ht _ _ _ _)
  rw [hr]
  split_ifs with hc
  · exact ⟨.inr rfl, by linarith [hround.2], by linarith [hc.2]⟩
  · exact ⟨.inl rfl, hround.2, by linarith⟩

/-! ## a density given by the user -/

/-- The configuration with a density given by its values `f`, and their angles if given. -/
def densityConfig (f : List ℝ) : Option (List ℝ) → Dict
  | none => [("density", .dict [("f", .arr f)])]
  | some x => [("density", .dict [("f", .arr f), ("x", .arr x)])]

private lemma density_item (f : List ℝ) (x : Option (List ℝ)) : ∃ cfg d, mergeDicts defaultPlotConfig (densityConfig f x) = .ok cfg ∧
    item cfg "density" = .ok (.dict d) ∧ d ≠ [] ∧ dget d "f" = some (.arr f) ∧ dget d "x" = x.map .arr ∧
    item cfg "outward" = .ok (.bool true) ∧ item cfg "scatter" = item defaultPlotConfig "scatter" := by
  cases x <;>
  simp [mergeDicts, densityConfig, mergeItems, mergeSub, defaultPlotConfig, dget, dset, Except.bind, item]

/-- A density given by its values: they are drawn, raised by 1.05, at the given angles or, without angles, at equal steps from 0 to
`2π`, and stored on the object. -/
theorem C125_custom (c : CircularObj) (unit : String) (mx : Option (List ℝ → List ℝ)) (f : List ℝ) (x : Option (List ℝ))
    (draws : List Draw) (hg : c.grouped = false) (h : circPlot c unit mx (some (densityConfig f x)) = .ok draws) :
    ∃ xs : List ℝ, xs.length = f.length ∧ (∀ x', x = some x' → xs = x') ∧
      (x = none → ∀ i, i < f.length → xs.getD i 0 = 2 * π * (i / ((f.length : ℝ) - 1))) ∧
      Draw.stored xs f ∈ draws ∧ Draw.curve "density" ((xs.map some).zip (f.map fun y => y + 1.05)) ∈ draws := by
  obtain ⟨cfg, d1, d2, cfg', d3, d4, d5, hc, h1, h2, h3, h4, h5, rfl⟩ := circPlot_ok h
  obtain ⟨cfg0, d, e1, e2, e3, e4, e5, -, -⟩ := density_item f x
  rw [Option.getD_some, e1] at hc
  cases hc
  rw [hg] at h1
  simp only [Bool.false_eq_true, if_false] at h1
  unfold plotUngrouped at h1
  obtain ⟨out, ho, h1⟩ := except_bind_ok h1
  obtain ⟨sc, hs, h1⟩ := except_bind_ok h1
  obtain ⟨rv, hr, h1⟩ := except_bind_ok h1
  obtain ⟨r, hrn, h1⟩ := except_bind_ok h1
  split_ifs at h1 with hne
  obtain ⟨dens, hd, h1⟩ := except_bind_ok h1
  rw [e2] at hd
  cases hd
  rw [if_pos (by simp [truthy, e3])] at h1
  obtain ⟨⟨xs, g⟩, hx, h1⟩ := except_bind_ok h1
  obtain ⟨lim, hl, h1⟩ := except_map_ok h1
  have hcd : customDensity (.arr f) ((x.map .arr).getD .none) = .ok (xs, g) := by
    unfold plotDensity at hx
    obtain ⟨_, _, hx⟩ := except_bind_ok hx
    simpa [subGet, e4, e5, Except.bind] using hx
  cases x with
  | none =>
    simp only [customDensity, Option.map_none, Option.getD_none, Except.ok.injEq, Prod.mk.injEq] at hcd
    obtain ⟨rfl, rfl⟩ := hcd
    refine ⟨linspace 0 (2 * π) f.length, by simp [linspace], by simp, fun _ i hi => ?_, by rw [← h1]; simp, by rw [← h1]; simp⟩
    rw [List.getD_eq_getElem?_getD, List.getElem?_eq_getElem (by simpa [linspace] using hi)]
    simp only [Option.getD_some, linspace, List.getElem_map, List.getElem_range]
    ring
  | some x' =>
    simp only [customDensity, Option.map_some, Option.getD_some] at hcd
    split_ifs at hcd with hlen
    cases hcd
    push Not at hlen
    exact ⟨xs, hlen, by simp, by simp, by rw [← h1]; simp, by rw [← h1]; simp⟩

/-- The theorem applies: three values at equal steps. -/
example : ∃ draws, circPlot plotExample "degree" none (some (densityConfig [0, 1 / 2, 0] none)) = .ok draws := by
  obtain ⟨hs, hh⟩ := heights_twelve plotExample.alpha
  have hsc := scatter_some
  unfold circPlot
  simp [densityConfig, mergeDicts, mergeItems, mergeSub, dset, defaultPlotConfig, dget, Except.bind, item, hsc, plotUngrouped, subItem, asNum, truthy, plotDensity,
    subGet, customDensity, plotYlim, limitOf, maxL, Except.map, plotRose, roseBins, roseEdges, hh, groupedDensity, plotMean,
    plotMedian, medianLine, plotFrame, asList, show plotExample.grouped = false from rfl, show plotExample.median = some [π / 2] from rfl,
    show plotExample.medianCi = some (none, 0.95) from rfl]

/-- Values and angles of different lengths are refused. -/
theorem C125_custom_refused (c : CircularObj) (unit : String) (mx : Option (List ℝ → List ℝ)) (f x : List ℝ) (hg : c.grouped = false)
    (hx : x.length ≠ f.length) : circPlot c unit mx (some (densityConfig f (some x))) = .error .valueError := by
  obtain ⟨cfg0, d, e1, e2, e3, e4, e5, e6, e7⟩ := density_item f (some x)
  unfold circPlot
  rw [Option.getD_some, e1]
  simp only [Except.bind, hg, Bool.false_eq_true, if_false]
  have : plotUngrouped c mx cfg0 = .error .valueError := by
    unfold plotUngrouped
    rw [e6, e7]
    simp only [Except.bind, item, defaultPlotConfig, dget, String.reduceEq, if_false, if_true, subItem, asNum]
    split_ifs with h0
    · rfl
    · have e2' : dget cfg0 "density" = some (.dict d) := by
        unfold item at e2
        split at e2
        · cases e2; assumption
        · cases e2
      rw [e2']
      simp [truthy, e3, plotDensity, subGet, e4, e5, Except.bind, customDensity, hx]
  rw [this]

end Verif.Props
