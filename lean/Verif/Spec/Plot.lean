import Verif.Model.Plot

/-!
# Specification: merged plot configurations
-/

namespace Verif.Spec

set_option autoImplicit false

/-- A dictionary `res` is `dflt` with the entries of `user` put over it, one by one (an entry that is a dictionary on
both sides is not determined here). -/
def Overrides (dflt user res : Dict) : Prop :=
  ∀ j, match dget user j with
    | none => dget res j = dget dflt j
    | some (.dict s) => (∀ d, dget dflt j ≠ some (.dict d)) → dget res j = some (.dict s)
    | some v => dget res j = some v

/-- What a user expects of the entry `res` for a feature in the merged configuration, given its default `dflt` and what
the user wrote, `user`: nothing written keeps the default, `False` switches off, `True` restores the default, a
dictionary changes the default entry by entry, anything else replaces it. -/
def EntryMerged (dflt user res : Option Val) : Prop :=
  match user with
  | none => res = dflt
  | some (.bool false) => res = some (.bool false)
  | some (.bool true) => dflt ≠ none ∧ res = dflt
  | some (.dict s) =>
    match dflt with
    | some (.dict d) => (s.map Prod.fst).Nodup → ∃ d', res = some (.dict d') ∧ Overrides d s d'
    | _ => res = some (.dict s)
  | some v => res = some v

/-- The configuration that changes only the number of bins of the rose diagram. -/
def binsConfig (m : ℤ) : Dict := [("rose", .dict [("bins", .int m)])]

/-- What the merged configuration says of a feature on which the user said nothing, or `True`. -/
def Untouched (user : Dict) (k : String) : Prop := dget user k = none ∨ dget user k = some (.bool true)

end Verif.Spec
