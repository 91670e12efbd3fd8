import Verif.Model.Descriptive
import Mathlib.Data.List.Sort
import Mathlib.MeasureTheory.Integral.IntervalIntegral.Basic

/-! # Model of the base class `CircularContinuous` of `pycircstat2/distributions.py` (lines 106-748)

`scipy.stats.rv_continuous` is not part of the repository. The public methods of the class hand the
wrapped angle to scipy, and scipy calls the `_pdf`, `_cdf`, `_ppf` of the concrete distribution. What
scipy does in between (argument check, support check, filling in of the values at the ends of the
support) is reproduced here as `distPdf`, `distCdf`, `distSf`, `distPpf` and is part of the trusted
description. Scalars stand for arrays: every step is element-wise. -/

set_option autoImplicit false

namespace Verif

open Real

/-! ## Wrapping: lines 194-232 -/

/-- `np.finfo(float).eps`. -/
noncomputable def floatEps : ℝ := 1 / 2 ^ 52

/-- `np.finfo(float).tiny`. -/
noncomputable def floatTiny : ℝ := 1 / 2 ^ 1022

/-- `_compute_period()`: distributions.py 194-204. `none` when the support is empty. -/
noncomputable def computePeriod (a b : ℝ) : Option (ℝ × ℝ) :=
  if b - a ≤ 0 then none else some (a, b - a)

/-- `_wrap_angles(values)` for one finite value: distributions.py 206-232. -/
noncomputable def wrapAngles (bounds : Option (ℝ × ℝ)) (x : ℝ) : ℝ :=
  match bounds with
  | none => x
  | some (lower, period) =>
    if isclose x (lower + period) 0 (floatEps * max 1 |lower + period|) then lower + period
    else pymod (x - lower) period + lower

/-- The wrapping of all fourteen distributions of the module, whose support is the default
`[0, 2π]`: distributions.py 143-146, 162. -/
noncomputable def wrap2pi (x : ℝ) : ℝ := wrapAngles (computePeriod 0 (2 * π)) x

/-- `_wrap_direction(angle)`: distributions.py 480-486. -/
noncomputable def wrapDirection (x : ℝ) : ℝ := wrap2pi x

/-! ## The methods seen by the user -/

/-- What a concrete distribution contributes: `_argcheck`, `_pdf`, `_cdf`, `_ppf` (and `_logpdf`,
whose default is the logarithm of `_pdf`). `σ` is the type of the shape parameters. -/
structure Family (σ : Type) where
  argcheck : σ → Prop
  pdf : ℝ → σ → ℝ
  cdf : ℝ → σ → ℝ
  ppf : ℝ → σ → ℝ

open Classical in
/-- `pdf(x, *shapes)`: distributions.py 404-406, then `rv_continuous.pdf` with support `[0, 2π]`:
`nan` for rejected shapes, 0 outside the (closed) support, `_pdf` on it. -/
noncomputable def distPdf {σ : Type} (D : Family σ) (x : ℝ) (s : σ) : Option ℝ :=
  if ¬ D.argcheck s then none
  else if 0 ≤ wrap2pi x ∧ wrap2pi x ≤ 2 * π then some (D.pdf (wrap2pi x) s)
  else some 0

open Classical in
/-- `logpdf(x, *shapes)`: distributions.py 408-410; `none` stands for `nan` and for `-inf`. -/
noncomputable def distLogpdf {σ : Type} (D : Family σ) (x : ℝ) (s : σ) : Option ℝ :=
  (distPdf D x s).bind fun v => if v ≤ 0 then none else some (log v)

open Classical in
/-- `cdf(x, *shapes)`: distributions.py 412-414, then `rv_continuous.cdf`: `_cdf` strictly inside the
support, 0 at and below its lower end, 1 at and above its upper end. -/
noncomputable def distCdf {σ : Type} (D : Family σ) (x : ℝ) (s : σ) : Option ℝ :=
  if ¬ D.argcheck s then none
  else if 2 * π ≤ wrap2pi x then some 1
  else if 0 < wrap2pi x then some (D.cdf (wrap2pi x) s)
  else some 0

open Classical in
/-- `sf(x, *shapes)`: distributions.py 420-422, then `rv_continuous.sf` with the default `_sf`,
which is `1 - _cdf`. -/
noncomputable def distSf {σ : Type} (D : Family σ) (x : ℝ) (s : σ) : Option ℝ :=
  if ¬ D.argcheck s then none
  else if wrap2pi x ≤ 0 then some 1
  else if wrap2pi x < 2 * π then some (1 - D.cdf (wrap2pi x) s)
  else some 0

open Classical in
/-- `ppf(q, *shapes)`: `rv_continuous.ppf` with support `[0, 2π]`: the ends of the support for
`q = 0` and `q = 1`, `nan` outside `[0, 1]`. -/
noncomputable def distPpf {σ : Type} (D : Family σ) (q : ℝ) (s : σ) : Option ℝ :=
  if ¬ D.argcheck s then none
  else if q = 0 then some 0
  else if q = 1 then some (2 * π)
  else if 0 < q ∧ q < 1 then some (D.ppf q s)
  else none

/-! ## Keyword handling: lines 270-356, 441-472 -/

/-- Keyword arguments: names with (flattened) array values. -/
abbrev Kwargs := List (String × List ℝ)

/-- `name in kwargs`. -/
def hasKey (kw : Kwargs) (name : String) : Prop := (kw.lookup name).isSome

instance (kw : Kwargs) (name : String) : Decidable (hasKey kw name) :=
  inferInstanceAs (Decidable (_ = true))

/-- `kwargs.pop(name, None)`. -/
def dropKey (kw : Kwargs) (name : String) : Kwargs := kw.filter fun p => p.1 ≠ name

/-- `_is_default_value(value, default)`: distributions.py 346-356 (`np.allclose` with its default
tolerances; an empty array counts as the default). -/
def isDefaultValue (value : List ℝ) (default : ℝ) : Prop :=
  ∀ v ∈ value, isclose v default rtolDefault atolDefault

open Classical in
/-- `_clean_loc_scale_kwargs(kwargs)`: distributions.py 308-344. -/
noncomputable def cleanLocScale (kw : Kwargs) : Except PyErr Kwargs :=
  if hasKey kw "loc" ∧ ¬ isDefaultValue ((kw.lookup "loc").getD []) 0 then .error .typeError
  else if hasKey kw "scale" ∧ ¬ isDefaultValue ((kw.lookup "scale").getD []) 1 then
    .error .typeError
  else if ["floc", "fscale", "fix_loc", "fix_scale"].any (fun a => decide (hasKey kw a)) then
    .error .typeError
  else .ok (dropKey (dropKey kw "loc") "scale")

open Classical in
/-- `_sanitize_fit_kwargs(kwds)`: distributions.py 441-472. -/
noncomputable def sanitizeFit (kw : Kwargs) : Except PyErr Kwargs :=
  if hasKey kw "loc" ∧ ¬ isDefaultValue ((kw.lookup "loc").getD []) 0 then .error .typeError
  else if hasKey kw "scale" ∧ ¬ isDefaultValue ((kw.lookup "scale").getD []) 1 then
    .error .typeError
  else if hasKey kw "fix_loc" then .error .typeError
  else if hasKey kw "fix_scale" then .error .typeError
  else if hasKey kw "floc" ∧ ¬ isDefaultValue ((kw.lookup "floc").getD []) 0 then .error .typeError
  else if hasKey kw "fscale" ∧ ¬ isDefaultValue ((kw.lookup "fscale").getD []) 1 then
    .error .typeError
  else .ok (["loc", "scale", "floc", "fscale"].foldl dropKey kw ++
    [("floc", [0]), ("fscale", [1])])

/-- One shape name of the loop at distributions.py 289-304. State: the values collected so far and
the keywords not yet used. -/
noncomputable def shapeStep (acc : Except PyErr (List ℝ × List (String × ℝ))) (nm : String × ℕ) :
    Except PyErr (List ℝ × List (String × ℝ)) := do
  let (vals, kw) ← acc
  match kw.lookup nm.1 with
  | none => .ok (vals, kw)
  | some v =>
    let rest := kw.filter fun p => p.1 ≠ nm.1
    match vals[nm.2]? with
    | some existing =>
      if isclose existing v rtolDefault atolDefault then .ok (vals, rest) else .error .typeError
    | none => .ok (vals ++ [v], rest)

/-- `_separate_shape_parameters(args, kwargs)` for scalar shapes named `names`:
distributions.py 275-306. -/
noncomputable def separateShapes (names : List String) (args : List ℝ) (kw : List (String × ℝ)) :
    Except PyErr (List ℝ × List (String × ℝ)) :=
  if kw = [] then .ok (args, []) else names.zipIdx.foldl shapeStep (.ok (args, kw))

/-- `_parse_args` as generated by scipy for `n` shapes, called with positional arguments only (the
wrapper at distributions.py 186-188 inspects keywords only): shapes, then `loc`, then `scale`. -/
def parsePositional (n : ℕ) (args : List ℝ) : Except PyErr (List ℝ × ℝ × ℝ) :=
  if args.length < n ∨ n + 2 < args.length then .error .typeError
  else .ok (args.take n, args.getD n 0, args.getD (n + 1) 1)

open Classical in
/-- `pdf(x, *args)` of a family with shapes read off a list, positional arguments beyond the shapes
included: distributions.py 404-406 and `rv_continuous.pdf`, which evaluates at `(x - loc)/scale`
(not wrapped again) and divides by `scale`. -/
noncomputable def distPdfPositional (D : Family (List ℝ)) (n : ℕ) (x : ℝ) (args : List ℝ) :
    Except PyErr (Option ℝ) := do
  let (shapes, loc, scale) ← parsePositional n args
  let y := (wrap2pi x - loc) / scale
  return if ¬ (D.argcheck shapes ∧ 0 < scale) then none
    else if 0 ≤ y ∧ y ≤ 2 * π then some (D.pdf y shapes / scale)
    else some 0

/-! ## The normaliser cache: lines 168-176, 364-390 -/

/-- `_normalization_cache`: keys are tuples of floats. -/
abbrev NormCache (ν : Type) := List (List ℝ × ν)

/-- One component of a cache key: distributions.py 367-380. A parameter is a (flattened) array; only
one-element arrays give a float. (For an empty array `arr.item()` raises `ValueError`, then
`float(arr)` raises `TypeError`, and the answer is `None`.) -/
def scalarOf : List ℝ → Option ℝ
  | [v] => some v
  | _ => none

/-- `_normalization_cache_key(*params)`: distributions.py 364-381. -/
def cacheKey (params : List (List ℝ)) : Option (List ℝ) := params.mapM scalarOf

open Classical in
/-- `_get_cached_normalizer(compute, *params)`: distributions.py 383-390. Returns the value and the
cache left behind. -/
noncomputable def cachedNormalizer {ν : Type} (cache : NormCache ν) (compute : ν)
    (params : List (List ℝ)) : ν × NormCache ν :=
  match cacheKey params with
  | none => (compute, cache)
  | some key =>
    match cache.lookup key with
    | some v => (v, cache)
    | none => (compute, (key, compute) :: cache)

/-- A history of calls on one distribution object, each call with its parameters; `build` is what
`compute()` does with them. Returns the values handed out, in order. -/
noncomputable def cachedCalls {ν : Type} (build : List (List ℝ) → ν) :
    NormCache ν → List (List (List ℝ)) → List ν
  | _, [] => []
  | cache, p :: ps =>
    let r := cachedNormalizer cache (build p) p
    r.1 :: cachedCalls build r.2 ps

/-! ## The generic numerical cdf: lines 491-591 -/

/-- One pass of the loop at distributions.py 542-572 over the sorted (finite) query points: state is
`(cumulative, current)`, output the value stored for this point (before the final clip). `quad a b`
is the value of the numerical integral from `a` to `b`. -/
noncomputable def cdfStep (quad : ℝ → ℝ → ℝ) (lo hi : ℝ) (st : ℝ × ℝ) (value : ℝ) :
    (ℝ × ℝ) × ℝ :=
  if value ≤ lo then (st, 0)
  else
    let clipped := min value hi
    let st' := if st.2 + 1 / 10 ^ 15 < clipped then (st.1 + quad st.2 clipped, clipped) else st
    if hi ≤ value then ((1, hi), 1) else (st', st'.1)

/-- The loop over the sorted points, keeping the original indices. -/
noncomputable def cdfLoop (quad : ℝ → ℝ → ℝ) (lo hi : ℝ) :
    ℝ × ℝ → List (ℝ × ℕ) → List (ℕ × ℝ)
  | _, [] => []
  | st, p :: ps =>
    let r := cdfStep quad lo hi st p.1
    (p.2, clip r.2 0 1) :: cdfLoop quad lo hi r.1 ps

/-- `_cdf_integral(x, …)` on an array of finite values: distributions.py 535-578. The stable argsort
is a stable merge sort of the values paired with their positions. -/
noncomputable def cdfIntegral (quad : ℝ → ℝ → ℝ) (lo hi : ℝ) (xs : List ℝ) : List ℝ :=
  let sorted := xs.zipIdx.mergeSort fun p q => decide (p.1 ≤ q.1)
  let stored := cdfLoop quad lo hi (0, lo) sorted
  (List.range xs.length).map fun i => (stored.lookup i).getD 0

/-! ## Descriptive helpers: lines 596-717. `m1`, `m2` are the first two trigonometric moments as
returned by `trig_moment` (scipy's `expect`). `none` stands for `nan` or `inf`. -/

/-- `trig_moment(p, *shapes)`: distributions.py 596-611; `expect` (numerical quadrature against
`_pdf` in scipy) is taken to be the exact integral over the support. -/
noncomputable def distTrigMoment {σ : Type} (D : Family σ) (p : ℕ) (s : σ) : ℂ :=
  ⟨∫ x in (0 : ℝ)..(2 * π), D.pdf x s * cos (p * x),
    ∫ x in (0 : ℝ)..(2 * π), D.pdf x s * sin (p * x)⟩

/-- `r()`: distributions.py 613-616. -/
noncomputable def distR (m1 : ℂ) : ℝ := clip ‖m1‖ 0 1

/-- `mean()`: distributions.py 618-624. -/
noncomputable def distMean (m1 : ℂ) : Option ℝ :=
  if isclose (clip ‖m1‖ 0 1) 0 rtolDefault (1 / 10 ^ 12) then none
  else some (wrapDirection (Complex.arg m1))

/-- `median()`: distributions.py 626-629. -/
noncomputable def distMedian {σ : Type} (D : Family σ) (s : σ) : Option ℝ := distPpf D (1 / 2) s

/-- `var()`: distributions.py 631-633. -/
noncomputable def distVar (m1 : ℂ) : ℝ := 1 - distR m1

/-- `std()`: distributions.py 635-640. -/
noncomputable def distStd (m1 : ℂ) : Option ℝ :=
  let R := clip (distR m1) 0 1
  if isclose R 0 rtolDefault (1 / 10 ^ 12) then none
  else some (sqrt (max 0 (-2 * log (clip R floatTiny 1))))

/-- `dispersion()`: distributions.py 642-650. -/
noncomputable def distDispersion (m1 m2 : ℂ) : Option ℝ :=
  let r1 := clip ‖m1‖ 0 1
  if isclose r1 0 rtolDefault (1 / 10 ^ 12) then none
  else some ((1 - clip ‖m2‖ 0 1) / (2 * r1 * r1))

/-- `skewness()`: distributions.py 652-665. -/
noncomputable def distSkewness (m1 m2 : ℂ) : Option ℝ :=
  let r1 := clip ‖m1‖ 0 1
  let denomBase := max 0 (1 - r1)
  if isclose denomBase 0 rtolDefault (1 / 10 ^ 12) then none
  else some (clip ‖m2‖ 0 1 * sin (Complex.arg m2 - 2 * Complex.arg m1) / denomBase ^ (3 / 2 : ℝ))

/-- `kurtosis()`: distributions.py 667-680. -/
noncomputable def distKurtosis (m1 m2 : ℂ) : Option ℝ :=
  let r1 := clip ‖m1‖ 0 1
  let denomBase := max 0 (1 - r1)
  if isclose denomBase 0 rtolDefault (1 / 10 ^ 12) then none
  else some ((clip ‖m2‖ 0 1 * cos (Complex.arg m2 - 2 * Complex.arg m1) - r1 ^ 4)
    / denomBase ^ 2)

/-- The dictionary returned by `stats()`. -/
structure DistStats where
  mean : Option ℝ
  median : Option ℝ
  r : ℝ
  var : ℝ
  std : Option ℝ
  dispersion : Option ℝ
  skewness : Option ℝ
  kurtosis : Option ℝ

/-- `stats()`: distributions.py 682-717. -/
noncomputable def distStats {σ : Type} (D : Family σ) (s : σ) (m1 m2 : ℂ) : DistStats :=
  let r1 := clip ‖m1‖ 0 1
  let u1 := Complex.arg m1
  let r2 := clip ‖m2‖ 0 1
  let u2 := Complex.arg m2
  let denomBase := max 0 (1 - r1)
  { mean := if isclose r1 0 rtolDefault (1 / 10 ^ 12) then none else some (wrapDirection u1)
    median := distMedian D s
    r := r1
    var := 1 - r1
    std := if isclose r1 0 rtolDefault (1 / 10 ^ 12) then none
      else some (sqrt (max 0 (-2 * log (clip r1 floatTiny 1))))
    dispersion := if isclose r1 0 rtolDefault (1 / 10 ^ 12) then none
      else some ((1 - r2) / (2 * r1 * r1))
    skewness := if isclose denomBase 0 rtolDefault (1 / 10 ^ 12) then none
      else some (r2 * sin (u2 - 2 * u1) / denomBase ^ (3 / 2 : ℝ))
    kurtosis := if isclose denomBase 0 rtolDefault (1 / 10 ^ 12) then none
      else some ((r2 * cos (u2 - 2 * u1) - r1 ^ 4) / denomBase ^ 2) }

end Verif
