import Verif.Model.Clustering

/-! # Model of `CircHAC.plot_dendrogram` (clustering.py 1474-1529) -/

namespace Verif

set_option autoImplicit false

/-- A straight line drawn by `ax.plot([x1, x2], [y1, y2])`. -/
structure Stroke where
  x1 : ℝ
  y1 : ℝ
  x2 : ℝ
  y2 : ℝ

/-- The three lines drawn for a merge: clustering.py 1509-1525. -/
noncomputable def mergeStrokes (m : Merge) : List Stroke :=
  [⟨m.left, 0, m.left, m.dist⟩, ⟨m.right, 0, m.right, m.dist⟩, ⟨m.left, m.dist, m.right, m.dist⟩]

/-- `plot_dendrogram`: clustering.py 1496-1529; `none` for a model that has not been fitted (`None.size`). Titles, axis
labels and styles are not modelled. -/
noncomputable def plotDendrogram (fitted : Option HACResult) : Except PyErr (List Stroke) :=
  match fitted with
  | none => .error .attributeError
  | some r => .ok (r.merges.flatMap mergeStrokes)

end Verif
