import Verif.Model.Base

/-!
# Model of `pycircstat2/visualization.py`: the configuration of a plot and what is handed to the axes

A plot is the list of the drawing calls on the axes; colours, markers and line styles are not part of it. A plot that
raises is its exception (the calls made before it are not kept).
-/

namespace Verif

open Real

set_option autoImplicit false

/-- The Python values of a configuration. A list or one-dimensional array of numbers is `arr`. -/
inductive Val where
  | none
  | bool (b : Bool)
  | int (z : ℤ)
  | num (x : ℝ)
  | str (s : String)
  | arr (l : List ℝ)
  | dict (d : List (String × Val))

/-- A Python dictionary, in insertion order. -/
abbrev Dict := List (String × Val)

/-- `d.get(key)` and `d[key]`. -/
def dget : Dict → String → Option Val
  | [], _ => Option.none
  | (k, v) :: d, key => if k = key then some v else dget d key

/-- `d[key] = v`. -/
def dset : Dict → String → Val → Dict
  | [], key, v => [(key, v)]
  | (k, x) :: d, key, v => if k = key then (k, v) :: d else (k, x) :: dset d key v

mutual

/-- The loop of `_merge_dicts(defaults, overrides)`, `merged` being the copy built so far: visualization.py 21-36. -/
def mergeItems (defaults merged : Dict) : Dict → Except PyErr Dict
  | [] => .ok merged
  | (key, value) :: rest =>
    match value with
    | .bool false => mergeItems defaults (dset merged key (.bool false)) rest
    | .bool true =>
      match dget defaults key with
      | Option.none => .error .keyError
      | some v => mergeItems defaults (dset merged key v) rest
    | .dict sub =>
      match dget merged key with
      | some (.dict m) =>
        (mergeSub m sub).bind fun m' => mergeItems defaults (dset merged key (.dict m')) rest
      | _ => mergeItems defaults (dset merged key (.dict sub)) rest
    | value => mergeItems defaults (dset merged key value) rest
termination_by overrides => sizeOf overrides

/-- The inner loop, over the entries given for one feature: visualization.py 28-33. -/
def mergeSub (m : Dict) : Dict → Except PyErr Dict
  | [] => .ok m
  | (key, value) :: rest =>
    match value with
    | .dict sub =>
      match dget m key with
      | some (.dict d) => (mergeItems d d sub).bind fun d' => mergeSub (dset m key (.dict d')) rest
      | _ => mergeSub (dset m key (.dict sub)) rest
    | value => mergeSub (dset m key value) rest
termination_by overrides => sizeOf overrides

end

/-- `_merge_dicts(defaults, overrides)`: visualization.py 14-36. -/
def mergeDicts (defaults overrides : Dict) : Except PyErr Dict := mergeItems defaults defaults overrides

/-- `DEFAULT_CIRC_PLOT_CONFIG`: visualization.py 39-83. -/
def defaultPlotConfig : Dict :=
  [("figsize", .arr [5, 5]), ("projection", .str "polar"), ("grid", .bool true), ("spine", .bool false),
    ("axis", .bool true), ("outward", .bool true), ("zero_location", .str "N"), ("clockwise", .int (-1)),
    ("radius", .dict [("ticks", .arr [0, 1]), ("lim_max", .none)]),
    ("scatter", .dict [("marker", .str "o"), ("color", .str "black"), ("size", .int 10), ("r_start", .int 1)]),
    ("rose", .dict [("bins", .int 12), ("counts", .bool false), ("color", .str "gray"), ("edgecolor", .str "black"),
      ("alpha", .num 0.5)]),
    ("density", .dict [("method", .str "nonparametric"), ("color", .str "black"), ("linestyle", .str "-")]),
    ("mean", .dict [("color", .str "black"), ("linestyle", .str "-"), ("kind", .str "arrow"), ("ci", .bool true)]),
    ("median", .dict [("color", .str "black"), ("linestyle", .str "dotted"), ("ci", .bool true)]),
    ("legend", .bool true)]

/-- `bool(v)`. -/
noncomputable def truthy : Val → Bool
  | .none => false
  | .bool b => b
  | .int z => decide (z ≠ 0)
  | .num x => decide (x ≠ 0)
  | .str s => decide (s ≠ "")
  | .arr l => !l.isEmpty
  | .dict d => !d.isEmpty

/-- `config[key]` for a dictionary. -/
def item (d : Dict) (key : String) : Except PyErr Val :=
  match dget d key with
  | some v => .ok v
  | Option.none => .error .keyError

/-- `v[key]` for any value: only a dictionary has string keys. -/
def subItem (v : Val) (key : String) : Except PyErr Val :=
  match v with
  | .dict d => item d key
  | _ => .error .typeError

/-- `v.get(key, dflt)`: only a dictionary has the method. -/
def subGet (v : Val) (key : String) (dflt : Val) : Except PyErr Val :=
  match v with
  | .dict d => .ok ((dget d key).getD dflt)
  | _ => .error .attributeError

/-- A value used as a number. -/
def asNum : Val → Except PyErr ℝ
  | .int z => .ok z
  | .num x => .ok x
  | .bool b => .ok (if b then 1 else 0)
  | _ => .error .typeError

/-- A value used as a list of numbers. -/
def asList : Val → Except PyErr (List ℝ)
  | .arr l => .ok l
  | _ => .error .typeError

/-- `np.round(x, 3)`. -/
noncomputable def round3 (x : ℝ) : ℝ := (roundEven (x * 10 ^ 3) : ℝ) / 10 ^ 3

/-- `np.linspace(a, b, n)`. -/
noncomputable def linspace (a b : ℝ) (n : ℕ) : List ℝ :=
  (List.range n).map fun i : ℕ => a + i * ((b - a) / ((n : ℝ) - 1))

/-- The calls on the axes. -/
inductive Draw where
  /-- `ax.scatter`: angle and radius of the points -/
  | scatter (pts : List (ℝ × ℝ))
  /-- `ax.plot`, named after what is drawn: angle (`none` for `nan`) and radius of the points -/
  | curve (name : String) (pts : List (Option ℝ × ℝ))
  /-- the attributes `density_x` and `density_f` set on the data object -/
  | stored (x f : List ℝ)
  /-- `ax.set_ylim(0, hi)` -/
  | ylim (hi : ℝ)
  /-- `ax.bar`: width; angle and height (`none` for `nan`) of the bars -/
  | bars (width : Val) (bars : List (ℝ × Option ℝ))
  /-- `ax.text`: angle, height, rotation, the number written -/
  | text (angle : ℝ) (height : Option ℝ) (rotation number : ℝ)
  /-- `ax.errorbar` with half length 0.03: an arc cap -/
  | cap (name : String) (angle : Option ℝ) (radius : ℝ)
  /-- zero location, direction, grid, axis, spine -/
  | frame (zero direction grid axis spine : Val)
  /-- `ax.set_rgrids` -/
  | rgrids (ticks : List ℝ)
  /-- major ticks with the hour written at them; minor ticks -/
  | hours (major : List (ℝ × ℝ)) (minor : List ℝ)
  /-- `ax.legend` -/
  | legend

/-- The distinct rounded angles: visualization.py 215. -/
noncomputable def scatterAngles (alpha : List ℝ) : List ℝ := npUnique (alpha.map round3)

/-- How often each occurs. -/
noncomputable def scatterCounts (alpha : List ℝ) : List ℕ :=
  (scatterAngles alpha).map fun u => (alpha.map round3).countP fun a => decide (a = u)

/-- `radii`: visualization.py 218-235; `np.arange(0, 0.05*f, 0.05)[:f]` is `0, 0.05, …, 0.05*(f - 1)`. -/
noncomputable def scatterRadii (rStart : ℝ) (outward : Bool) (counts : List ℕ) : List ℝ :=
  counts.flatMap fun f => (List.range f).map fun i : ℕ =>
    if outward then rStart + 0.05 + 0.05 * (i : ℝ) else rStart - 0.05 - 0.05 * (i : ℝ)

/-- The points of `ax.scatter`: visualization.py 215-241. -/
noncomputable def scatterPts (rStart : ℝ) (outward : Bool) (alpha : List ℝ) : List (ℝ × ℝ) :=
  let counts := scatterCounts alpha
  let angles := (List.zipWith (fun u (c : ℕ) => List.replicate c u) (scatterAngles alpha) counts).flatten
  angles.zip (scatterRadii rStart outward counts)

/-- `nonparametric_density_estimation(alpha, h0)` with an infinite `h0` as `none`: then the weights are finite and
divided by infinity, so that the estimate is zero. -/
noncomputable def plotKde (alpha : List ℝ) : Option ℝ → List ℝ × List ℝ
  | some h => kde alpha h 1
  | Option.none => (kdeGrid, kdeGrid.map fun _ => 0)

/-- The custom density: visualization.py 254-266. -/
noncomputable def customDensity (f x : Val) : Except PyErr (List ℝ × List ℝ) :=
  match f with
  | .arr f =>
    match x with
    | .none => .ok (linspace 0 (2 * π) f.length, f)
    | .arr x => if x.length ≠ f.length then .error .valueError else .ok (x, f)
    | .dict _ => .error .typeError
    | _ => .error .valueError
  | .dict _ => .error .typeError
  | _ => .error .valueError

/-- The density of ungrouped data: visualization.py 254-283. `mixture` is `predict_density` of the selected mixture,
`none` when the object has none. -/
noncomputable def plotDensity (c : CircularObj) (mixture : Option (List ℝ → List ℝ)) (density : Val) :
    Except PyErr (List ℝ × List ℝ) :=
  (subGet density "method" (.str "nonparametric")).bind fun method =>
    (subGet density "f" .none).bind fun f =>
      (subGet density "x" .none).bind fun x =>
        match f with
        | .none =>
          match method with
          | .str "nonparametric" =>
            match (match density with | .dict d => dget d "h0" | _ => Option.none) with
            | Option.none => .ok (plotKde c.alpha (smoothParam c.r c.n.toNat))
            | some h0 => (asNum h0).map fun h => plotKde c.alpha (some h)
          | .str "MovM" =>
            match mixture with
            | Option.none => .error .attributeError
            | some p => .ok (linspace 0 (2 * π) 100, p (linspace 0 (2 * π) 100))
          | _ => .error .valueError
        | f => customDensity f x

/-- `ax.set_ylim(0, lim)`, for `None` with the maximum of the given radii. -/
noncomputable def limitOf (lim : Val) (radii : List ℝ) (extra : ℝ) : Except PyErr Draw :=
  match lim with
  | .none =>
    match maxL radii with
    | Option.none => .error .valueError
    | some m => .ok (.ylim (m + extra))
  | lim => (asNum lim).map .ylim

/-- `ax.set_ylim(0, …)` with `config["radius"]["lim_max"]`, or the maximum of the given radii:
visualization.py 295-303. -/
noncomputable def plotYlim (cfg : Dict) (radii : List ℝ) (extra : ℝ) : Except PyErr Draw :=
  (item cfg "radius").bind fun radius =>
    (subItem radius "lim_max").bind fun lim => limitOf lim radii extra

/-- The points and the density of ungrouped data: visualization.py 212-303. -/
noncomputable def plotUngrouped (c : CircularObj) (mixture : Option (List ℝ → List ℝ)) (cfg : Dict) :
    Except PyErr (List Draw) :=
  (item cfg "outward").bind fun outward =>
    (item cfg "scatter").bind fun scatter =>
      (subItem scatter "r_start").bind fun rStart =>
        (asNum rStart).bind fun rStart =>
          if scatterCounts c.alpha = [] then .error .valueError
          else
            let pts := scatterPts rStart (truthy outward) c.alpha
            (item cfg "density").bind fun density =>
              if truthy density then
                (plotDensity c mixture density).bind fun (x, f) =>
                  (plotYlim cfg (f.map fun y => y + 1.05) 0).map fun lim =>
                    [.scatter pts, .stored x f,
                      .curve "density" ((x.map some).zip (f.map fun y => y + 1.05)), lim]
              else
                (plotYlim cfg (scatterRadii rStart (truthy outward) (scatterCounts c.alpha)) 0.025).map fun lim =>
                  [.scatter pts, lim]

/-- The edges of the bins of the rose diagram: the number of bins, or increasing edges (the named rules of
`np.histogram` are not modelled). -/
noncomputable def roseEdges : Val → Except PyErr (List ℝ)
  | .int m => if m ≤ 0 then .error .valueError else .ok (histEdges m.toNat)
  | .arr e => if e.Pairwise (· ≤ ·) then .ok e else .error .valueError
  | _ => .error .typeError

/-- Centres and counts of the bars: visualization.py 308-316. -/
noncomputable def roseBins (c : CircularObj) (rose : Val) : Except PyErr (List ℝ × List ℝ) :=
  if c.grouped then .ok (c.alpha, c.w)
  else
    (subItem rose "bins").bind fun bins =>
      (roseEdges bins).map fun e =>
        (List.zipWith (fun lo hi => 0.5 * (lo + hi)) e e.tail, histCounts c.alpha e)

/-- The heights of the bars: visualization.py 318-319. The counts are not negative. -/
noncomputable def roseHeights (w : List ℝ) : Except PyErr (List (Option ℝ)) :=
  match maxL (w.map sqrt) with
  | Option.none => .error .valueError
  | some m => .ok (w.map fun x => pydiv (sqrt x) m)

/-- The counts written on the bars: visualization.py 333-354. -/
noncomputable def roseTexts (beta w : List ℝ) (h : List (Option ℝ)) : List Draw :=
  (beta.zip (w.zip h)).filterMap fun (b, v, y) =>
    let angle := round3 b
    let rotation := if π / 2 ≤ angle ∧ angle < 3 * π / 2 then angle + π else angle
    if v ≠ 0 then some (.text angle (y.map fun y => y - 0.075) rotation v) else Option.none

/-- The density of grouped data: visualization.py 356-363. -/
noncomputable def groupedDensity (c : CircularObj) (mixture : Option (List ℝ → List ℝ)) (cfg : Dict) :
    Except PyErr (List Draw) :=
  (item cfg "density").bind fun density =>
    if c.grouped && truthy density then
      match mixture with
      | Option.none => .error .attributeError
      | some p =>
        let x := linspace 0 (2 * π) 100
        let f := (p x).map fun y => y + 1
        (item cfg "rlim_max").bind fun lim =>
          (limitOf lim f 0).map fun d => [.curve "density" ((x.map some).zip f), d]
    else .ok []

/-- The rose diagram: visualization.py 306-366; also the configuration that the rest uses. -/
noncomputable def plotRose (c : CircularObj) (mixture : Option (List ℝ → List ℝ)) (cfg : Dict) :
    Except PyErr (List Draw × Dict) :=
  (item cfg "rose").bind fun rose =>
    if truthy rose then
      (roseBins c rose).bind fun (beta, w) =>
        (roseHeights w).bind fun h =>
          (subItem rose "color").bind fun _ =>
            (subItem rose "counts").bind fun counts =>
              (groupedDensity c mixture cfg).map fun dens =>
                (.bars ((dget cfg "width").getD (.num (2 * π / beta.length))) (beta.zip h) ::
                  ((if truthy counts then roseTexts beta w h else []) ++ dens), cfg)
    else
      (item cfg "radius").bind fun radius =>
        match radius with
        | .dict d => .ok ([], dset cfg "radius" (.dict (dset d "ticks" (.arr [1]))))
        | _ => .error .typeError

/-- The angles of the arc of a confidence interval: visualization.py 383-388, 414-419. -/
noncomputable def arcAngles : Option (ℝ × ℝ) → List (Option ℝ)
  | Option.none => List.replicate 50 Option.none
  | some (lb, ub) => (linspace lb (if lb < ub then ub else ub + 2 * π) 50).map some

/-- An arc with its two caps: visualization.py 390-401, 420-431. -/
noncomputable def arcDraws (name : String) (ci : Option (ℝ × ℝ)) (radius : ℝ) : List Draw :=
  let x1 := arcAngles ci
  [.curve (name ++ " interval") (x1.map fun x => (x, radius)),
    .cap name (x1.headD Option.none) radius, .cap name (x1.getLastD Option.none) radius]

/-- The mean: visualization.py 368-401. -/
noncomputable def plotMean (c : CircularObj) (cfg : Dict) : Except PyErr (List Draw) :=
  (item cfg "mean").bind fun mean =>
    if truthy mean then
      (subGet mean "color" (.str "black")).bind fun _ =>
        let line := Draw.curve "mean" [(some 0, 0), (c.mean, c.r)]
        (subItem mean "ci").bind fun ci =>
          if truthy ci then
            (subItem mean "color").map fun _ => line :: arcDraws "mean" c.meanCi c.r
          else .ok [line]
    else .ok []

/-- The line to the median: visualization.py 404-411. A line to several medians raises. -/
noncomputable def medianLine : Option (List ℝ) → Except PyErr Draw
  | Option.none => .ok (.curve "median" [(some 0, 0), (Option.none, 0.95)])
  | some [m] => .ok (.curve "median" [(some 0, 0), (some m, 0.95)])
  | some _ => .error .valueError

/-- The median: visualization.py 403-431. An object without the attribute `median_lb` raises. -/
noncomputable def plotMedian (c : CircularObj) (cfg : Dict) : Except PyErr (List Draw) :=
  (item cfg "median").bind fun median =>
    if truthy median then
      (subItem median "color").bind fun _ =>
        (medianLine c.median).bind fun line =>
          (subItem median "ci").bind fun ci =>
            if truthy ci then
              match c.medianCi with
              | Option.none => .error .attributeError
              | some (ci, _) => .ok (line :: arcDraws "median" ci (1 - 0.05))
            else .ok [line]
    else .ok []

/-- The frame of the plot: visualization.py 433-453. `np.arange(0, full_cycle, 3)` has `⌈full_cycle/3⌉` elements; the
formatter pairs labels with positions in order. -/
noncomputable def plotFrame (c : CircularObj) (unit : String) (cfg : Dict) : Except PyErr (List Draw) :=
  (item cfg "zero_location").bind fun zero =>
    (item cfg "clockwise").bind fun direction =>
      (item cfg "grid").bind fun grid =>
        (item cfg "axis").bind fun axis =>
          (item cfg "spine").bind fun spine =>
            (item cfg "radius").bind fun radius =>
              (subItem radius "ticks").bind fun ticks =>
                (asList ticks).bind fun ticks =>
                  (item cfg "legend").bind fun legend =>
                    (item cfg "median").bind fun median =>
                      (item cfg "mean").map fun mean =>
                        [.frame zero direction grid axis spine, .rgrids ticks] ++
                          (if unit = "hour" then
                            [.hours
                              (((List.range 8).map fun i : ℕ => (i : ℝ) * (2 * π / 8)).zip
                                ((List.range ⌈c.fullCycle / 3⌉₊).map fun i : ℕ => 3 * (i : ℝ)))
                              ((List.range 24).map fun i : ℕ => (i : ℝ) * (2 * π / 24))]
                          else []) ++
                          (if truthy legend && (truthy median || truthy mean) then [.legend] else [])

/-- `circ_plot(circ_data, ax, config)`: visualization.py 86-455, which is what `Circular.plot(ax, config)` calls:
base.py 429-469. `config` is `none` when not given. -/
noncomputable def circPlot (c : CircularObj) (unit : String) (mixture : Option (List ℝ → List ℝ))
    (config : Option Dict) : Except PyErr (List Draw) :=
  (mergeDicts defaultPlotConfig (config.getD [])).bind fun cfg =>
    (if c.grouped then .ok [] else plotUngrouped c mixture cfg).bind fun d1 =>
      (plotRose c mixture cfg).bind fun (d2, cfg) =>
        (plotMean c cfg).bind fun d3 =>
          (plotMedian c cfg).bind fun d4 =>
            (plotFrame c unit cfg).map fun d5 => d1 ++ d2 ++ d3 ++ d4 ++ d5

/-- The object that `Axial.plot` hands to `circ_plot`: the attributes that the constructor of `Axial` changes are
`alpha`, `mean` and the interval of the mean (base.py 506-513). -/
noncomputable def axialPlotObj (a : AxialObj) : CircularObj :=
  { a.base with alpha := a.alpha, mean := a.mean, meanCi := a.meanCi }

end Verif
