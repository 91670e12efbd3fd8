import Verif.Model.TestStars
import Verif.Props.Utils

/-! # C05: the stars of test results -/

set_option autoImplicit false

namespace Verif.Props

open Real Verif Verif.Spec

/-- The stars of a test result: those of its p-value, if it has one under this name. No stars are given, but also no
`None`, for a p-value of at least 0.1 and for `nan`: the two cannot be told apart. Without a number there is no answer,
`None`; so it is for the default name `pval` with the results that name their p-values otherwise. -/
theorem C05_result_stars (attrs : List (String × AttrValue)) (attr : String) :
    (∀ x p, attrs.lookup attr = some (.number x) → x = some p →
      (resultSignificance attrs attr = some "***" ↔ p < 1 / 1000) ∧
      (resultSignificance attrs attr = some "**" ↔ 1 / 1000 ≤ p ∧ p < 1 / 100) ∧
      (resultSignificance attrs attr = some "*" ↔ 1 / 100 ≤ p ∧ p < 1 / 20) ∧
      (resultSignificance attrs attr = some "." ↔ 1 / 20 ≤ p ∧ p < 1 / 10)) ∧
    (resultSignificance attrs attr = some "" ↔ ∃ x, attrs.lookup attr = some (.number x) ∧ ∀ p, x = some p → 1 / 10 ≤ p) ∧
    (resultSignificance attrs attr = none ↔ ∀ x, attrs.lookup attr ≠ some (.number x)) := by
  refine ⟨?_, ?_, ?_⟩
  · rintro x p h rfl
    have hp := C05_significanceCode_spec p
    simp only [resultSignificance, h, starsOf, Option.some.injEq]
    exact ⟨hp.1, hp.2.1, hp.2.2.1, hp.2.2.2.1⟩
  · unfold resultSignificance
    rcases attrs.lookup attr with _ | _ | (_ | p) | _ <;> simp [starsOf]
    have hp := (C05_significanceCode_spec p).2.2.2.2
    rw [hp, one_div]
  · unfold resultSignificance
    rcases attrs.lookup attr with _ | _ | _ | _ <;> simp

/-- The result of Rao's homogeneity test has two p-values, none of them called `pval`. -/
example : resultSignificance [("H_polar", .number (some 9)), ("pval_polar", .number (some (1 / 500)))] "pval" = none ∧
    resultSignificance [("H_polar", .number (some 9)), ("pval_polar", .number (some (1 / 500)))] "pval_polar"
      = some "**" := by
  refine ⟨by rfl, ?_⟩
  rw [((C05_result_stars _ _).1 (some (1 / 500)) (1 / 500) (by rfl) rfl).2.1]
  norm_num

end Verif.Props
