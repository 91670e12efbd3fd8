import Verif.Model.RegressionSummary

/-! # Model of `TestResult.significance` (hypothesis.py 91-104) -/

namespace Verif

open Real

set_option autoImplicit false

/-- The value of an attribute of a result: `None`; something `float()` accepts, with the number it gives (`none`: `nan`);
something it refuses with `TypeError` or `ValueError`. -/
inductive AttrValue where
  | pyNone
  | number (x : Option ℝ)
  | other

/-- `result.significance(attr)`, for a result with the attributes `attrs`: hypothesis.py 91-104. `none` is `None`. -/
noncomputable def resultSignificance (attrs : List (String × AttrValue)) (attr : String) : Option String :=
  match attrs.lookup attr with
  | none => none
  | some .pyNone => none
  | some (.number x) => some (starsOf x)
  | some .other => none

end Verif
