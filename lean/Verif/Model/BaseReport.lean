import Verif.Model.Base

/-! # Model of the text report of a `Circular` object and of the dictionary of options of its interval (base.py) -/

namespace Verif

open Real

set_option autoImplicit false

/-- The numbers of the report: base.py 316-363. Angles are in the unit of the data; `none` is a printed `nan` (for
`mean`, `median`, `s`, `s0`, `skewness`, `kurtosis`) or a line left out (for the two intervals). The text around the
numbers, their rounding and the line about the mixture are not modelled. -/
structure Report where
  grouped : Bool
  unit : String
  n : ℤ
  mean : Option ℝ
  pval : ℝ
  stars : String
  meanCi : Option (ℝ × ℝ × ℝ)
  median : Option ℝ
  medianCi : Option (ℝ × ℝ × ℝ)
  s : Option ℝ
  s0 : Option ℝ
  r : ℝ
  kappa : ℝ
  skewness : Option ℝ
  kurtosis : Option ℝ
  medianMethod : String
  meanCiMethod : Option String

/-- `Circular.__repr__()`, which `str()` and `summary()` return as well: base.py 316-366, 427. An array of several
medians cannot be formatted as a number, a `TypeError`. The intervals are the level, the lower and the upper bound. -/
noncomputable def circularReport (unit : String) (opts : MedianOpts) (c : CircularObj) : Except PyErr Report :=
  let out (x : ℝ) : ℝ := rad2data x (some c.fullCycle)
  let rep (median : Option ℝ) : Report :=
    { grouped := c.grouped, unit := unit, n := c.n, mean := c.mean.map out, pval := c.pval,
      stars := significanceCode c.pval, meanCi := c.meanCi.map fun q => (0.95, out q.1, out q.2), median := median.map out,
      medianCi := c.medianCi.bind fun q => q.1.map fun i => (q.2, out i.1, out i.2), s := c.s.map out, s0 := c.s0.map out,
      r := c.r, kappa := c.kappa, skewness := c.skewness, kurtosis := c.kurtosis, medianMethod := opts.method,
      meanCiMethod := c.meanCiMethod }
  match c.median with
  | none => .ok (rep none)
  | some [m] => .ok (rep (some m))
  | some _ => .error .typeError

/-- A dictionary of options, for example `{"method": "dispersion"}`. -/
abbrev Options := List (String × String)

/-- `d.pop("method", "bootstrap")`: the value, and the dictionary that is left: base.py 254-256. -/
def popMethod (d : Options) : String × Options := ((d.lookup "method").getD "bootstrap", d.filter fun q => q.1 ≠ "method")

/-- Does the constructor get as far as reading the options? base.py 161-240 raise no exception. -/
noncomputable def readsOptions (data : List ℝ) (w edges : Option (List ℝ)) (unit : String) (fullCycle rotate : Option ℝ) :
    Bool :=
  match (fullCycleOf unit fullCycle).bind fun k => (circularAlpha data k rotate).bind fun alpha =>
      (prepare alpha w edges).bind fun p => match circMeanAndR p.alpha p.w with
        | none => .error .valueError
        | some (_, r) => rayleighTest none none (some r) (some (pyInt p.w.sum)) 1 [] with
  | .ok _ => true
  | .error _ => false

/-- `Circular(data, …, kwargs_mean_ci=d)` for a dictionary object `d`: the object, and what `d` contains afterwards:
base.py 185, 241-270. -/
noncomputable def circularOptions (data : List ℝ) (w edges : Option (List ℝ)) (unit : String) (fullCycle rotate : Option ℝ)
    (d : Options) (opts : MedianOpts) (e : Env) : Except PyErr CircularObj × Options :=
  (circular data w edges unit fullCycle rotate (some (some (popMethod d).1)) opts e,
    if readsOptions data w edges unit fullCycle rotate then (popMethod d).2 else d)

end Verif
