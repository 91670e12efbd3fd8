import Verif.Model.ClusterKJ

/-! # Prediction by a fitted hierarchical clustering: clustering.py -/

set_option autoImplicit false

namespace Verif

open Real

/-- `CircHAC.predict`: clustering.py 1449-1472; `centers` is `self.centers_`, `none` before `fit`; `unit` and
`fullCycle` are those of the constructor. With a `nan` centre `np.argmin` returns its position. -/
noncomputable def hacPredict (metric unit : String) (fullCycle : ℝ) (centers : Option (List (Option ℝ)))
    (x : List ℝ) : Except PyErr (List ℕ) :=
  match centers with
  | none => .error .valueError
  | some cs => if cs = [] ∧ x ≠ [] then .error .valueError
    else .ok (x.map fun v => nearest metric cs (toRad unit fullCycle v))

end Verif
