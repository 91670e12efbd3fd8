import Verif.Model.Clustering
import Verif.Model.DistSimple
import Verif.Model.DistCartwright
import Verif.Model.DistCauchy
import Verif.Model.DistWrapNorm
import Verif.Model.DistVonMises

/-!
# Model of `pycircstat2/clustering.py`: the estimator used by `MoCD`

Which `fit` method `MoCD` asks its distribution for, and what it does when a method fails. `str.lower` is a
parameter. Parameters of a component are the values of its dictionary in the order of `param_names`.
-/

namespace Verif

set_option autoImplicit false

/-- The argument `fit_method`: `None`, a list or tuple of names (or `None`), one name. -/
inductive FitMethod
  | none
  | list (ms : List (Option String))
  | str (m : String)

/-- `_normalise_fit_method`: clustering.py 1010-1024. A candidate `none` leaves the choice to the distribution. -/
def normaliseFitMethod (lower : String → String) : FitMethod → List (Option String)
  | .none => [Option.none]
  | .list ms => if ms = [] then [Option.none] else ms.map fun m => m.map lower
  | .str m => if lower m = "auto" then [some "moments", some "mle"] else [some (lower m)]

/-- The distributions accepted by `MoCD`: clustering.py 13-19. -/
def mocdAllowed : List String := ["cardioid", "cartwright", "wrapnorm", "wrapcauchy", "vonmises"]

/-- The checks of `MoCD.__init__` up to the name of the distribution: clustering.py 929-952. -/
noncomputable def mocdCheck (isCircular : Bool) (nClusters nIters burnin : ℤ) (threshold : ℝ) (unit name : String) :
    Except PyErr Unit :=
  if isCircular = false then .error .typeError
  else if nClusters ≤ 0 then .error .valueError
  else if nIters ≤ 0 then .error .valueError
  else if burnin < 0 then .error .valueError
  else if threshold ≤ 0 then .error .valueError
  else if unit ≠ "degree" ∧ unit ≠ "radian" then .error .valueError
  else if name ∉ mocdAllowed then .error .valueError
  else .ok ()

/-- The candidates chosen by `MoCD.__init__`: clustering.py 983-995. `kw` is `fit_kwargs["method"]`, if present;
`name` is the lower-cased name of the distribution. -/
def mocdCandidates (lower : String → String) (kw : Option String) (m : FitMethod) (name : String) :
    List (Option String) :=
  let base := match kw with
    | some k => [some (lower k)]
    | Option.none => normaliseFitMethod lower m
  let auto := match m with
    | .none => true
    | .list _ => false
    | .str s => decide (lower s = "auto")
  if auto = true ∧ (name = "vonmises_flattopped" ∨ name = "inverse_batschelet") then [some "mle"] else base

/-- `_array_to_params` for a tuple of values: clustering.py 1032-1041; `np` is the number of parameter names. -/
def arrayToParams (np : ℕ) (v : List ℝ) : Except PyErr (List ℝ) :=
  if v.length = np then .ok v else .error .valueError

/-- One round of the loop of `_fit_component`: clustering.py 1058-1081. `fit m info` is
`distribution.fit(alpha, method=m, weights=weights, return_info=info)` without the diagnostics, the keyword `method`
being left out for `none`. A `TypeError` leads to a second call without `return_info`. -/
def tryMethod (np : ℕ) (fit : Option String → Bool → Except PyErr (List ℝ)) (m : Option String) :
    Except PyErr (List ℝ) :=
  (match fit m true with
    | .error .typeError => fit m false
    | r => r).bind (arrayToParams np)

/-- The loop of `_fit_component`: clustering.py 1056-1086. -/
def firstMethod (np : ℕ) (fit : Option String → Bool → Except PyErr (List ℝ)) :
    List (Option String) → Except PyErr (List ℝ)
  | [] => .error .runtimeError
  | m :: ms => match tryMethod np fit m with
    | .ok v => .ok v
    | .error _ => firstMethod np fit ms

/-- `_fit_component`: clustering.py 1043-1086, for finite weights. `fit w` is the fit with weights `w`. -/
noncomputable def fitComponent (np : ℕ) (fit : List ℝ → Option String → Bool → Except PyErr (List ℝ))
    (cand : List (Option String)) (w : List ℝ) (current : Option (List ℝ)) : Except PyErr (List ℝ) :=
  if w.sum ≤ 1 / 10 ^ 12 then
    match current with
    | some c => .ok c
    | Option.none => firstMethod np (fit (w.map fun _ => 1)) cand
  else firstMethod np (fit w) cand

/-! ## The five distributions

The `fit` methods of the five accepted distributions as `_fit_component` calls them. All five have the default
`method="mle"` (distributions.py 1597, 2104, 2662, 3134, 3773), lower-case the name of the method, take `return_info`
and return a pair. -/

/-- A `fit` method with two parameters, called by name of the method. -/
def pairFit (lower : String → String) (fit : List ℝ → Option (List ℝ) → String → Except PyErr (ℝ × ℝ))
    (data w : List ℝ) (m : Option String) (_info : Bool) : Except PyErr (List ℝ) :=
  (fit data (some w) (lower (m.getD "mle"))).map fun v => [v.1, v.2]

/-- What the optimiser and the internals of `fit` depend on. -/
structure FitTools where
  /-- `minimize` with a gradient. -/
  minG : (ℝ → ℝ → Option ℝ) → (ℝ → ℝ → ℝ × ℝ) → ℝ × ℝ → MinResult 2
  /-- `minimize` without one. -/
  min : (ℝ × ℝ → Option ℝ) → ℝ × ℝ → MinResult 2
  /-- The windows of the wrapped normal series. -/
  win : ℝ → ℝ → ℕ

/-- The `fit` method of an accepted distribution; `rnd` is Python's `round`. -/
noncomputable def mocdFamilyFit (T : FitTools) (rnd : ℝ → ℤ) (name : String) :
    List ℝ → Option (List ℝ) → String → Except PyErr (ℝ × ℝ) :=
  if name = "cardioid" then cardFit T.minG
  else if name = "cartwright" then cwFit T.minG
  else if name = "wrapnorm" then wnFit T.min T.win
  else if name = "wrapcauchy" then wcFit T.minG
  else vmFit T.minG rnd

/-- `logpdf` of an accepted distribution with parameters in order: clustering.py 1118. Values that are not finite
are replaced by 0. -/
noncomputable def pairLogpdf (D : Family (ℝ × ℝ)) (th : List ℝ) (x : ℝ) : ℝ :=
  (distLogpdf D x (th.getD 0 0, th.getD 1 0)).getD 0

/-- `MoCD(distribution, fit_method=m, ...).fit(X)` for an accepted distribution: clustering.py 983-1187. `D` is the
distribution, `name` its name. -/
noncomputable def mocdRun {n K : ℕ} (T : FitTools) (rnd : ℝ → ℤ) (lower : String → String) (D : Family (ℝ × ℝ))
    (name : String) (kw : Option String) (m : FitMethod) (unit : String) (fullCycle : ℝ) (burnin nIters : ℕ)
    (threshold : ℝ) (draws : List (Fin n → Fin K)) (X : Fin n → ℝ) :
    Except PyErr (Option (EMResult (MixState (List ℝ) K))) :=
  let fit := pairFit lower (mocdFamilyFit T rnd name)
  let cand := mocdCandidates lower kw m name
  let a := fun i => toRad unit fullCycle (X i)
  mocdFit (pairLogpdf D) (fun l => fitComponent 2 (fit l) cand (l.map fun _ => 1) Option.none)
    (fun w => fitComponent 2 (fit (List.ofFn a)) cand (List.ofFn w) Option.none) unit fullCycle burnin nIters threshold
    (false, Option.none) draws X

end Verif
