import Verif.Spec.Plot
import Verif.Spec.Circle
import Verif.Lemmas.Base
import Verif.Lemmas.Lists

/-! Helper lemmas: merging configurations; the parts of a plot. -/

set_option autoImplicit false

namespace Verif

open Real Verif.Spec

lemma dget_dset (d : Dict) (key : String) (v : Val) (k : String) :
    dget (dset d key v) k = if key = k then some v else dget d k := by
  induction d with
  | nil => simp only [dset, dget]
  | cons e d ih =>
    obtain ⟨k', x⟩ := e
    simp only [dset]
    by_cases h : k' = key
    · subst h
      by_cases hk : k' = k <;> simp [dget, hk]
    · rw [if_neg h]
      simp only [dget, ih]
      by_cases hk : k' = k
      · subst hk
        have : ¬ key = k' := fun h' => h h'.symm
        simp [this]
      · simp [hk]

lemma dget_none_of_notMem (d : Dict) (k : String) (h : k ∉ d.map Prod.fst) : dget d k = none := by
  induction d with
  | nil => rfl
  | cons e d ih =>
    obtain ⟨k', x⟩ := e
    simp only [List.map_cons, List.mem_cons, not_or] at h
    simp only [dget]
    rw [if_neg (fun h' => h.1 h'.symm)]
    exact ih h.2

lemma mergeSub_lookup : ∀ (o m d' : Dict), (o.map Prod.fst).Nodup → mergeSub m o = .ok d' → Overrides m o d' := by
  intro o
  induction o with
  | nil =>
    intro m d' _ h j
    rw [mergeSub] at h
    cases h
    simp [dget]
  | cons e rest ih =>
    obtain ⟨key, value⟩ := e
    intro m d' hnd h
    simp only [List.map_cons, List.nodup_cons] at hnd
    have hrest := dget_none_of_notMem rest key hnd.1
    have step : ∀ v, mergeSub (dset m key v) rest = .ok d' →
        (v = value ∨ ∃ s d, value = .dict s ∧ dget m key = some (.dict d)) →
        Overrides m ((key, value) :: rest) d' := by
      intro v hv hE j
      have := ih _ _ hnd.2 hv j
      by_cases hj : key = j
      · subst hj
        rw [hrest] at this
        simp only [dget_dset, if_true] at this
        simp only [dget, if_true]
        rcases hE with rfl | ⟨s, d, rfl, hd⟩
        · split
          · simp_all
          · simp_all
          · simp_all
        · simp only
          intro hno
          exact absurd hd (hno d)
      · simp only [dget_dset, if_neg hj] at this
        simp only [dget, if_neg hj]
        exact this
    cases value with
    | dict sub =>
      simp only [mergeSub] at h
      split at h
      · rename_i d hd
        cases hs : mergeItems d d sub with
        | error e => rw [hs] at h; cases h
        | ok m' =>
          rw [hs] at h
          exact step _ h (.inr ⟨sub, d, rfl, hd⟩)
      · exact step _ h (.inl rfl)
    | _ => exact step _ (by simpa only [mergeSub] using h) (.inl rfl)

lemma mergeItems_lookup (defaults : Dict) : ∀ (o merged cfg : Dict), (o.map Prod.fst).Nodup →
    (∀ k ∈ o.map Prod.fst, dget merged k = dget defaults k) → mergeItems defaults merged o = .ok cfg →
    ∀ k, (k ∉ o.map Prod.fst → dget cfg k = dget merged k) ∧
      (k ∈ o.map Prod.fst → EntryMerged (dget defaults k) (dget o k) (dget cfg k)) := by
  intro o
  induction o with
  | nil =>
    intro merged cfg _ _ h k
    rw [mergeItems] at h
    cases h
    simp
  | cons e rest ih =>
    obtain ⟨key, value⟩ := e
    intro merged cfg hnd hm h k
    simp only [List.map_cons, List.nodup_cons] at hnd
    have hkey : dget merged key = dget defaults key := hm key (by simp)
    have step : ∀ v, mergeItems defaults (dset merged key v) rest = .ok cfg →
        EntryMerged (dget defaults key) (some value) (some v) →
        (k ∉ ((key, value) :: rest).map Prod.fst → dget cfg k = dget merged k) ∧
        (k ∈ ((key, value) :: rest).map Prod.fst →
          EntryMerged (dget defaults k) (dget ((key, value) :: rest) k) (dget cfg k)) := by
      intro v hv hE
      have hm' : ∀ k ∈ rest.map Prod.fst, dget (dset merged key v) k = dget defaults k := by
        intro k hk
        rw [dget_dset, if_neg (by rintro rfl; exact hnd.1 hk)]
        exact hm k (by simp [hk])
      have := ih _ _ hnd.2 hm' hv k
      simp only [List.map_cons, List.mem_cons, not_or]
      constructor
      · rintro ⟨h1, h2⟩
        rw [this.1 h2, dget_dset, if_neg (fun h => h1 h.symm)]
      · intro hk
        by_cases hkk : k = key
        · subst hkk
          rw [this.1 hnd.1, dget_dset, if_pos rfl]
          simpa only [dget, if_true] using hE
        · rcases hk with hk | hk
          · exact absurd hk hkk
          · have h2 := this.2 hk
            simp only [dget]
            rw [if_neg (fun h => hkk h.symm)]
            exact h2
    cases value with
    | bool b =>
      cases b with
      | false =>
        simp only [mergeItems] at h
        exact step _ h (by simp [EntryMerged])
      | true =>
        simp only [mergeItems] at h
        split at h
        · cases h
        · rename_i v hv
          exact step _ h (by simp [EntryMerged, hv])
    | dict sub =>
      simp only [mergeItems] at h
      split at h
      · rename_i m hmm
        cases hs : mergeSub m sub with
        | error e => rw [hs] at h; cases h
        | ok m' =>
          rw [hs] at h
          refine step (.dict m') h ?_
          rw [hkey] at hmm
          simp only [EntryMerged, hmm]
          exact fun hsn => ⟨m', rfl, mergeSub_lookup _ _ _ hsn hs⟩
      · rename_i hno
        refine step _ h ?_
        simp only [EntryMerged]
        rw [hkey] at hno
        split
        · rename_i d hd; exact absurd hd (hno d)
        · trivial
    | _ =>
      simp only [mergeItems] at h
      exact step _ h (by simp [EntryMerged])

mutual
lemma mergeItems_error (defaults merged : Dict) (o : Dict) (e : PyErr) (h : mergeItems defaults merged o = .error e) :
    e = .keyError := by
  match o with
  | [] => rw [mergeItems] at h; cases h
  | (key, value) :: rest =>
    cases value with
    | bool b =>
      cases b with
      | false =>
        simp only [mergeItems] at h
        exact mergeItems_error _ _ rest e h
      | true =>
        simp only [mergeItems] at h
        split at h
        · cases h; rfl
        · exact mergeItems_error _ _ rest e h
    | dict sub =>
      simp only [mergeItems] at h
      split at h
      · rename_i m hmm
        cases hs : mergeSub m sub with
        | error e' =>
          rw [hs] at h
          cases h
          exact mergeSub_error m sub _ hs
        | ok m' =>
          rw [hs] at h
          exact mergeItems_error _ _ rest e h
      · exact mergeItems_error _ _ rest e h
    | _ =>
      simp only [mergeItems] at h
      exact mergeItems_error _ _ rest e h
termination_by sizeOf o

lemma mergeSub_error (m : Dict) (o : Dict) (e : PyErr) (h : mergeSub m o = .error e) : e = .keyError := by
  match o with
  | [] => rw [mergeSub] at h; cases h
  | (key, value) :: rest =>
    cases value with
    | dict sub =>
      simp only [mergeSub] at h
      split at h
      · rename_i d hmm
        cases hs : mergeItems d d sub with
        | error e' =>
          rw [hs] at h
          cases h
          exact mergeItems_error d d sub _ hs
        | ok m' =>
          rw [hs] at h
          exact mergeSub_error _ rest e h
      · exact mergeSub_error _ rest e h
    | _ =>
      simp only [mergeSub] at h
      exact mergeSub_error _ rest e h
termination_by sizeOf o
end

/-- Without dictionaries inside the entries for a feature, the inner loop never fails. -/
lemma mergeSub_ok : ∀ (o m : Dict), (∀ e ∈ o, ∀ d, e.2 ≠ .dict d) → ∃ d', mergeSub m o = .ok d' := by
  intro o
  induction o with
  | nil => intro m _; exact ⟨m, by rw [mergeSub]⟩
  | cons e rest ih =>
    obtain ⟨key, value⟩ := e
    intro m h
    have hr := ih (dset m key value) (fun e he => h e (by simp [he]))
    have hv := h (key, value) (by simp)
    cases value with
    | dict s => exact absurd rfl (hv s)
    | _ => simpa only [mergeSub] using hr

lemma circPlot_ok {c : CircularObj} {unit : String} {mx : Option (List ℝ → List ℝ)} {config : Option Dict}
    {draws : List Draw} (h : circPlot c unit mx config = .ok draws) :
    ∃ cfg d1 d2 cfg' d3 d4 d5, mergeDicts defaultPlotConfig (config.getD []) = .ok cfg ∧
      (if c.grouped then .ok [] else plotUngrouped c mx cfg) = .ok d1 ∧ plotRose c mx cfg = .ok (d2, cfg') ∧
      plotMean c cfg' = .ok d3 ∧ plotMedian c cfg' = .ok d4 ∧ plotFrame c unit cfg' = .ok d5 ∧
      draws = d1 ++ d2 ++ d3 ++ d4 ++ d5 := by
  unfold circPlot at h
  obtain ⟨cfg, hc, h⟩ := except_bind_ok h
  obtain ⟨d1, h1, h⟩ := except_bind_ok h
  obtain ⟨⟨d2, cfg'⟩, h2, h⟩ := except_bind_ok h
  obtain ⟨d3, h3, h⟩ := except_bind_ok h
  obtain ⟨d4, h4, h⟩ := except_bind_ok h
  cases h5 : plotFrame c unit cfg' with
  | error e => simp only [h5] at h; cases h
  | ok d5 =>
    simp only [h5] at h
    cases h
    exact ⟨cfg, d1, d2, cfg', d3, d4, d5, hc, h1, h2, h3, h4, h5, rfl⟩

lemma scatterPts_eq (r : ℝ) (out : Bool) (alpha : List ℝ) :
    scatterPts r out alpha = (scatterAngles alpha).flatMap fun u =>
      (List.range ((alpha.map round3).countP fun a => decide (a = u))).map fun i : ℕ =>
        (u, if out then r + 0.05 + 0.05 * (i : ℝ) else r - 0.05 - 0.05 * (i : ℝ)) := by
  unfold scatterPts scatterCounts scatterRadii
  induction scatterAngles alpha with
  | nil => simp
  | cons u l ih =>
    simp only [List.map_cons, List.zipWith_cons_cons, List.flatten_cons, List.flatMap_cons] at ih ⊢
    rw [List.zip_append (by simp), ih]
    congr 1
    apply List.ext_getElem
    · simp
    · intro i h1 h2
      simp

lemma nodup_scatterAngles (alpha : List ℝ) : (scatterAngles alpha).Nodup := List.nodup_dedup _

lemma mem_scatterAngles (alpha : List ℝ) (u : ℝ) : u ∈ scatterAngles alpha ↔ u ∈ alpha.map round3 := by
  unfold scatterAngles npUnique
  rw [List.mem_dedup]
  exact (sortR_perm _).mem_iff

lemma scatterPts_filter (r : ℝ) (out : Bool) (alpha : List ℝ) (u : ℝ) :
    (scatterPts r out alpha).filter (fun p => decide (p.1 = u)) =
      (List.range ((alpha.map round3).countP fun a => decide (a = u))).map fun i : ℕ =>
        (u, if out then r + 0.05 + 0.05 * (i : ℝ) else r - 0.05 - 0.05 * (i : ℝ)) := by
  rw [scatterPts_eq]
  have key : ∀ l : List ℝ, l.Nodup → (l.flatMap fun u =>
      (List.range ((alpha.map round3).countP fun a => decide (a = u))).map fun i : ℕ =>
        (u, if out then r + 0.05 + 0.05 * (i : ℝ) else r - 0.05 - 0.05 * (i : ℝ))).filter
          (fun p => decide (p.1 = u)) = if u ∈ l then
      (List.range ((alpha.map round3).countP fun a => decide (a = u))).map fun i : ℕ =>
        (u, if out then r + 0.05 + 0.05 * (i : ℝ) else r - 0.05 - 0.05 * (i : ℝ)) else [] := by
    intro l
    induction l with
    | nil => simp
    | cons v l ih =>
      intro hnd
      rw [List.nodup_cons] at hnd
      rw [List.flatMap_cons, List.filter_append, ih hnd.2]
      by_cases hv : v = u
      · subst hv
        rw [if_neg hnd.1, List.append_nil, if_pos (by simp)]
        rw [List.filter_eq_self]
        intro p hp
        obtain ⟨i, _, rfl⟩ := List.mem_map.1 hp
        simp
      · rw [List.filter_eq_nil_iff.2 (by
          intro p hp
          obtain ⟨i, _, rfl⟩ := List.mem_map.1 hp
          simpa using hv), List.nil_append]
        have : u ∈ v :: l ↔ u ∈ l := by
          rw [List.mem_cons]
          exact ⟨fun h => h.resolve_left (fun h => hv h.symm), .inr⟩
        simp only [this]
  rw [key _ (nodup_scatterAngles alpha)]
  by_cases hu : u ∈ scatterAngles alpha
  · rw [if_pos hu]
  · rw [if_neg hu]
    rw [mem_scatterAngles] at hu
    rw [List.countP_eq_zero.2 (by
      intro a ha
      simp only [decide_eq_true_eq]
      rintro rfl
      exact hu ha)]
    rfl

lemma scatterPts_perm (r : ℝ) (out : Bool) (alpha : List ℝ) :
    ((scatterPts r out alpha).map Prod.fst).Perm (alpha.map round3) := by
  classical
  rw [List.perm_iff_count]
  intro u
  have h := congrArg List.length (scatterPts_filter r out alpha u)
  rw [List.length_map, List.length_range] at h
  rw [List.count_eq_countP, List.count_eq_countP, List.countP_map, List.countP_eq_length_filter]
  have h1 : (fun a : ℝ => a == u) = fun a => decide (a = u) := by
    funext a; by_cases h : a = u <;> simp [h]
  have h2 : ((fun a : ℝ => a == u) ∘ Prod.fst : ℝ × ℝ → Bool) = fun p => decide (p.1 = u) := by
    funext a; by_cases h : a.1 = u <;> simp [h]
  rw [h2, h, h1]

lemma roseHeights_spec (w : List ℝ) (h0 : ∀ x ∈ w, 0 ≤ x) (hpos : ∃ x ∈ w, 0 < x) :
    ∃ m ∈ w, 0 < m ∧ (∀ x ∈ w, x ≤ m) ∧ roseHeights w = .ok (w.map fun x => some (sqrt (x / m))) := by
  obtain ⟨x0, hx0, hx0p⟩ := hpos
  obtain ⟨M, hM, hMm, hMax⟩ := maxL_exists (l := w.map sqrt) (by rintro h; simp at h; simp [h] at hx0)
  obtain ⟨m, hm, rfl⟩ := List.mem_map.1 hMm
  have hle : ∀ x ∈ w, x ≤ m := by
    intro x hx
    have := hMax _ (List.mem_map_of_mem hx)
    exact (sqrt_le_sqrt_iff (h0 m hm)).1 this
  have hmp : 0 < m := lt_of_lt_of_le hx0p (hle x0 hx0)
  refine ⟨m, hm, hmp, hle, ?_⟩
  unfold roseHeights
  rw [hM]
  simp only [pydiv, (sqrt_pos.2 hmp).ne', if_false]
  congr 1
  apply List.map_congr_left
  intro x hx
  rw [sqrt_div (h0 x hx)]

lemma histCounts_nonneg (alpha : List ℝ) : ∀ (e : List ℝ), ∀ x ∈ histCounts alpha e, 0 ≤ x := by
  intro e
  induction e with
  | nil => simp [histCounts]
  | cons lo es ih =>
    cases es with
    | nil => simp [histCounts]
    | cons hi rest =>
      cases rest with
      | nil => simp [histCounts]
      | cons x xs =>
        intro y hy
        simp only [histCounts, List.mem_cons] at hy
        rcases hy with rfl | hy
        · positivity
        · exact ih y hy

lemma mergeDicts_nil (d : Dict) : mergeDicts d [] = .ok d := by rw [mergeDicts, mergeItems]

lemma plotRose_bars {c : CircularObj} {mx : Option (List ℝ → List ℝ)} {cfg cfg' : Dict} {d2 : List Draw} {rose : Val}
    (hr : item cfg "rose" = .ok rose) (ht : truthy rose = true) (h : plotRose c mx cfg = .ok (d2, cfg')) :
    ∃ beta w hs width, roseBins c rose = .ok (beta, w) ∧ roseHeights w = .ok hs ∧
      width = (dget cfg "width").getD (.num (2 * π / beta.length)) ∧ Draw.bars width (beta.zip hs) ∈ d2 := by
  unfold plotRose at h
  rw [hr] at h
  simp only [Except.bind, ht, if_true] at h
  obtain ⟨⟨beta, w⟩, hb, h⟩ := except_bind_ok h
  obtain ⟨hs, hh, h⟩ := except_bind_ok h
  obtain ⟨_, _, h⟩ := except_bind_ok h
  obtain ⟨_, _, h⟩ := except_bind_ok h
  obtain ⟨dens, _, h⟩ := except_map_ok h
  refine ⟨beta, w, hs, _, hb, hh, rfl, ?_⟩
  cases h
  simp

lemma mergeDicts_bins (m : ℤ) : ∃ cfg, mergeDicts defaultPlotConfig (binsConfig m) = .ok cfg ∧
    item cfg "rose" = .ok (.dict [("bins", .int m), ("counts", .bool false), ("color", .str "gray"),
      ("edgecolor", .str "black"), ("alpha", .num 0.5)]) ∧ dget cfg "width" = none := by
  simp [mergeDicts, binsConfig, mergeItems, mergeSub, defaultPlotConfig, dget, dset, Except.bind, item]

lemma histEdges_cons (m : ℕ) : histEdges m = 0 :: ((List.range m).map fun i : ℕ => ((i : ℝ) + 1) * (2 * π / m)) := by
  unfold histEdges
  rw [List.range_succ_eq_map, List.map_cons, List.map_map]
  simp

lemma histEdges_pairwise (m : ℕ) (hm : 0 < m) : (histEdges m).Pairwise (· < ·) := by
  unfold histEdges
  rw [List.pairwise_map]
  refine List.pairwise_lt_range.imp ?_
  intro a b hab
  have : (a : ℝ) < b := by exact_mod_cast hab
  have hp := pi_pos
  have : 0 < 2 * π / (m : ℝ) := by positivity
  gcongr

lemma arc_length (lb ub : ℝ) (hlb : 0 ≤ lb) (hlb' : lb < 2 * π) (hub : 0 ≤ ub) (hub' : ub < 2 * π) :
    0 < (if lb < ub then ub else ub + 2 * π) - lb ∧ (if lb < ub then ub else ub + 2 * π) - lb ≤ 2 * π ∧
      SameDir (lb + ((if lb < ub then ub else ub + 2 * π) - lb)) ub := by
  split_ifs with h
  · exact ⟨by linarith, by linarith, 0, by simp⟩
  · exact ⟨by linarith, by linarith, 1, by push_cast; ring⟩

lemma arcDraws_eq (name : String) (lb ub r : ℝ) :
    arcDraws name (some (lb, ub)) r =
      [.curve (name ++ " interval") ((List.range 50).map fun i : ℕ =>
          (some (lb + i / 49 * ((if lb < ub then ub else ub + 2 * π) - lb)), r)),
        .cap name (some lb) r, .cap name (some (lb + ((if lb < ub then ub else ub + 2 * π) - lb))) r] := by
  unfold arcDraws arcAngles linspace
  simp only [List.map_map]
  congr 1
  · congr 1
    apply List.map_congr_left
    intro i _
    simp only [Function.comp_apply]
    push_cast
    ring_nf
  · congr 1
    · rw [show (50 : ℕ) = 49 + 1 from rfl, List.range_succ_eq_map]
      simp
    · rw [show (50 : ℕ) = 49 + 1 from rfl, List.range_succ, List.map_append]
      simp only [List.map_cons, List.map_nil, List.getLastD_concat, Function.comp_apply]
      push_cast
      ring_nf

lemma plotRose_cfg {c : CircularObj} {mx : Option (List ℝ → List ℝ)} {cfg cfg' : Dict} {d2 : List Draw} {rose : Val}
    (hr : item cfg "rose" = .ok rose) (ht : truthy rose = true) (h : plotRose c mx cfg = .ok (d2, cfg')) :
    cfg' = cfg := by
  unfold plotRose at h
  rw [hr] at h
  simp only [Except.bind, ht, if_true] at h
  obtain ⟨⟨beta, w⟩, hb, h⟩ := except_bind_ok h
  obtain ⟨hs, hh, h⟩ := except_bind_ok h
  obtain ⟨_, _, h⟩ := except_bind_ok h
  obtain ⟨_, _, h⟩ := except_bind_ok h
  obtain ⟨dens, _, h⟩ := except_map_ok h
  cases h
  rfl

lemma default_rose : item defaultPlotConfig "rose" = .ok (.dict [("bins", .int 12), ("counts", .bool false),
    ("color", .str "gray"), ("edgecolor", .str "black"), ("alpha", .num 0.5)]) := rfl

lemma default_mean {c : CircularObj} {unit : String} {mx : Option (List ℝ → List ℝ)} {draws : List Draw}
    (h : circPlot c unit mx none = .ok draws) :
    ∀ d ∈ Draw.curve "mean" [(some 0, 0), (c.mean, c.r)] :: arcDraws "mean" c.meanCi c.r, d ∈ draws := by
  obtain ⟨cfg, d1, d2, cfg', d3, d4, d5, hc, h1, h2, h3, h4, h5, rfl⟩ := circPlot_ok h
  rw [Option.getD_none, mergeDicts_nil] at hc
  cases hc
  have hcfg : cfg' = defaultPlotConfig := plotRose_cfg default_rose (by simp [truthy]) h2
  subst hcfg
  have : plotMean c defaultPlotConfig =
      .ok (Draw.curve "mean" [(some 0, 0), (c.mean, c.r)] :: arcDraws "mean" c.meanCi c.r) := by
    simp [plotMean, item, defaultPlotConfig, dget, Except.bind, subGet, subItem, truthy, Except.map]
  rw [this] at h3
  cases h3
  intro d hd
  simp only [List.mem_append]
  exact .inl (.inl (.inr hd))

lemma arc_middle (lb ub μ d : ℝ) (hd : 0 < d) (hd' : d < π) (h1 : SameDir lb (μ - d)) (h2 : SameDir ub (μ + d)) :
    ∀ L, 0 < L → L ≤ 2 * π → SameDir (lb + L) ub → L = 2 * d ∧ SameDir (lb + L / 2) μ := by
  intro L hL hL' h3
  obtain ⟨j1, h1⟩ := h1
  obtain ⟨j2, h2⟩ := h2
  obtain ⟨j3, h3⟩ := h3
  have hp := pi_pos
  have key : L = 2 * d + (j3 + j2 - j1 : ℤ) * (2 * π) := by
    push_cast
    linarith
  have hj : j3 + j2 - j1 = 0 := by
    have a1 : ((j3 + j2 - j1 : ℤ) : ℝ) < 1 := by
      by_contra hge
      push Not at hge
      nlinarith
    have a2 : (-1 : ℝ) < ((j3 + j2 - j1 : ℤ) : ℝ) := by
      by_contra hge
      push Not at hge
      nlinarith
    have a1' : j3 + j2 - j1 < 1 := by exact_mod_cast a1
    have a2' : -1 < j3 + j2 - j1 := by exact_mod_cast a2
    omega
  rw [hj] at key
  have hL2 : L = 2 * d := by simpa using key
  refine ⟨hL2, j1, ?_⟩
  rw [hL2]
  linarith

lemma smoothParam_zero (n : ℕ) : smoothParam 0 n = none := by
  have hk : circKappa 0 (some n) = 0 := by
    have : kappaRaw 0 = 0 := by norm_num [kappaRaw]
    simp [circKappa, this]
  simp [smoothParam, hk, pysqrt, pydiv]

lemma dset_same : ∀ (d : Dict) (k : String) (v : Val), dget d k = some v → dset d k v = d
  | [], _, _, h => by simp [dget] at h
  | (k', x) :: d, k, v, h => by
    simp only [dget] at h
    simp only [dset]
    by_cases hk : k' = k
    · rw [if_pos hk] at h
      cases h
      rw [if_pos hk]
    · rw [if_neg hk] at h
      rw [if_neg hk, dset_same d k v h]

/-- A grouped object has no interval of the median. -/
lemma grouped_medianCi {data : List ℝ} {w edges : Option (List ℝ)} {unit : String} {fc rot : Option ℝ}
    {kw : Option (Option String)} {opts : MedianOpts} {e : Env} {c : CircularObj}
    (h : circular data w edges unit fc rot kw opts e = .ok c) :
    (c.grouped = true ∨ c.median = none → c.medianCi = none) ∧
      (c.grouped = false → ∀ m, c.median = some [m] → c.medianCi ≠ none) ∧ c.w ≠ [] := by
  obtain ⟨k, alpha, p, -, -, hpr, hc⟩ := circular_ok h
  have hw : c.w ≠ [] := by
    rw [hc.w]; intro h0; have := hc.sum_ne; rw [h0] at this; simp at this
  unfold circular at h
  obtain ⟨k, -, h⟩ := except_bind_ok h
  obtain ⟨alpha, -, h⟩ := except_bind_ok h
  obtain ⟨p, hp, h⟩ := except_bind_ok h
  unfold circularOf at h
  simp only at h
  split at h
  · cases h
  · obtain ⟨_, _, h⟩ := except_bind_ok h
    obtain ⟨_, _, h⟩ := except_bind_ok h
    obtain ⟨_, _, h⟩ := except_bind_ok h
    obtain ⟨_, _, h⟩ := except_bind_ok h
    obtain ⟨med, _, h⟩ := except_bind_ok h
    obtain ⟨ci, hci, h⟩ := except_map_ok h
    subst h
    simp only at hw ⊢
    unfold circularMedianCi at hci
    refine ⟨?_, ?_, hw⟩
    · rintro (hg | hm)
      · rw [if_pos hg] at hci; cases hci; rfl
      · rw [hm] at hci
        split_ifs at hci <;> (cases hci; rfl)
    · intro hg m hm
      rw [hg, hm] at hci
      simp only [Bool.false_eq_true, if_false] at hci
      obtain ⟨q, _, hq⟩ := except_map_ok hci
      rw [← hq]; simp

/-- `plotRose` changes nothing but the radius. -/
lemma plotRose_get {c : CircularObj} {mx : Option (List ℝ → List ℝ)} {cfg cfg' : Dict} {d2 : List Draw}
    (h : plotRose c mx cfg = .ok (d2, cfg')) (k : String) (hk : k ≠ "radius") : dget cfg' k = dget cfg k := by
  unfold plotRose at h
  obtain ⟨rose, hr, h⟩ := except_bind_ok h
  split_ifs at h
  · obtain ⟨⟨beta, w⟩, hb, h⟩ := except_bind_ok h
    obtain ⟨hs, hh, h⟩ := except_bind_ok h
    obtain ⟨_, _, h⟩ := except_bind_ok h
    obtain ⟨_, _, h⟩ := except_bind_ok h
    obtain ⟨dens, _, h⟩ := except_map_ok h
    cases h
    rfl
  · obtain ⟨radius, _, h⟩ := except_bind_ok h
    split at h
    · cases h
      rw [dget_dset, if_neg (fun h => hk h.symm)]
    · cases h

lemma histCounts_getD (alpha : List ℝ) : ∀ (e : List ℝ) (i : ℕ) (hi : i + 1 < e.length),
    (histCounts alpha e).getD i 0 = ((alpha.countP fun a => decide (e[i] ≤ a) &&
      (decide (a < e[i + 1]) || (decide (i + 2 = e.length) && decide (a = e[i + 1]))) : ℕ) : ℝ)
  | [], i, hi => by simp at hi
  | [_], i, hi => by simp at hi
  | [lo, hi'], i, hi => by
    have : i = 0 := by simp at hi; omega
    subst this
    simp only [histCounts, List.getD_cons_zero, List.getElem_cons_zero, List.getElem_cons_succ, List.length_cons,
      List.length_nil, decide_true, Bool.true_and]
    congr 1
    apply List.countP_congr
    intro a _
    simp only [Bool.and_eq_true, decide_eq_true_eq, Bool.or_eq_true]
    constructor
    · rintro ⟨h1, h2⟩; exact ⟨h1, lt_or_eq_of_le h2⟩
    · rintro ⟨h1, h2 | h2⟩
      · exact ⟨h1, h2.le⟩
      · exact ⟨h1, h2.le⟩
  | lo :: hi' :: x :: xs, 0, hi => by
    simp only [histCounts, List.getD_cons_zero, List.getElem_cons_zero, List.getElem_cons_succ, List.length_cons]
    congr 1
    apply List.countP_congr
    intro a _
    have : ¬ (0 + 2 = xs.length + 1 + 1 + 1) := by omega
    simp
  | lo :: hi' :: x :: xs, i + 1, hi => by
    have ih := histCounts_getD alpha (hi' :: x :: xs) i (by simpa using hi)
    rw [histCounts, List.getD_cons_succ, ih]
    · congr 1
      apply List.countP_congr
      intro a _
      simp
    · simp

lemma default_works (c : CircularObj) (unit : String) (mx : Option (List ℝ → List ℝ)) (hg : c.grouped = false)
    (hne : c.alpha ≠ []) (m : ℝ) (hmed : c.median = some [m]) (q : Option (ℝ × ℝ) × ℝ) (hq : c.medianCi = some q) :
    ∃ draws, circPlot c unit mx none = .ok draws := by
  obtain ⟨q1, q2⟩ := q
  have hsc : scatterCounts c.alpha ≠ [] := by
    intro h0
    unfold scatterCounts at h0
    rw [List.map_eq_nil_iff] at h0
    obtain ⟨a, l, hal⟩ := List.exists_cons_of_ne_nil hne
    have := (mem_scatterAngles c.alpha (round3 a)).2 (by rw [hal]; simp)
    rw [h0] at this
    simp at this
  have hk : ∀ h, ∃ x f, plotKde c.alpha h = (x, f) ∧ f ≠ [] := by
    intro h
    cases h with
    | none => exact ⟨_, _, rfl, by simp [kdeGrid]⟩
    | some h => exact ⟨_, _, rfl, by simp [kdeGrid]⟩
  obtain ⟨x, f, hkd, hf⟩ := hk (smoothParam c.r c.n.toNat)
  obtain ⟨mx', hmx, -⟩ := maxL_exists (l := f.map fun y => y + 1.05) (by simpa using hf)
  have hh : ∃ hs, roseHeights (histCounts c.alpha (histEdges 12)) = .ok hs := by
    have hlen : (histCounts c.alpha (histEdges 12)).length = 12 := by
      rw [histCounts_length]; simp [histEdges]
    obtain ⟨m, hm, -⟩ := maxL_exists (l := (histCounts c.alpha (histEdges 12)).map sqrt) (by
      intro h0
      have := congrArg List.length h0
      simp [hlen] at this)
    unfold roseHeights
    rw [hm]
    exact ⟨_, rfl⟩
  obtain ⟨hs, hh⟩ := hh
  unfold circPlot
  rw [Option.getD_none, mergeDicts_nil]
  simp [defaultPlotConfig, dget, Except.bind, item, hg, hsc, plotUngrouped, subItem, asNum, truthy, plotDensity,
    subGet, hkd, plotYlim, limitOf, hmx, Except.map, plotRose, roseBins, roseEdges, hh, groupedDensity, plotMean,
    plotMedian, hmed, medianLine, hq, plotFrame, asList]

end Verif
