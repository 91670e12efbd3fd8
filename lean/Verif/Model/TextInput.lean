import Verif.Model.Utils

/-! # Text input: times of day (utils.py) and the formula interface of `CLRegression` (regression.py)

Strings are lists of characters. -/

set_option autoImplicit false

namespace Verif

open Real

/-- `s.split(c)` for a single character `c`. -/
def splitChar (c : Char) : List Char → List (List Char)
  | [] => [[]]
  | a :: s =>
    if a = c then [] :: splitChar c s
    else match splitChar c s with
      | [] => [[a]]
      | w :: ws => (a :: w) :: ws

/-- `s.strip()`; `ws` are the whitespace characters. -/
def strip (ws : Char → Bool) (s : List Char) : List Char := ((s.dropWhile ws).reverse.dropWhile ws).reverse

/-! ## Times -/

/-- `_t2f`: utils.py 46-49; `pyFloat` is the constructor `float`. -/
noncomputable def t2f (pyFloat : List Char → Except PyErr ℝ) (sep : Char) (x : List Char) : Except PyErr ℝ :=
  match splitChar sep x with
  | [h, m] => (pyFloat h).bind fun h => (pyFloat m).map fun m => h + m / 60
  | _ => .error .valueError

/-- `time2float(x, sep)`: utils.py 43-52; `np.vectorize` refuses an empty array. -/
noncomputable def time2float (pyFloat : List Char → Except PyErr ℝ) (sep : Char) (x : List (List Char)) :
    Except PyErr (List ℝ) :=
  if x = [] then .error .valueError else x.mapM (t2f pyFloat sep)

/-! ## The constructor of `CLRegression` -/

/-- A `DataFrame` with numeric columns of different names; `none` is a missing value. -/
abbrev Frame := List (List Char × List (Option ℝ))

/-- `data[name]`. -/
def Frame.col (data : Frame) (name : List Char) : Except PyErr (List (Option ℝ)) :=
  match data.lookup name with
  | some c => .ok c
  | none => .error .keyError

/-- `CLRegression._parse_formula`: regression.py 175-188; the predictors by column. -/
noncomputable def parseFormula (ws : Char → Bool) (formula : List Char) (data : Frame) :
    Except PyErr (List (Option ℝ) × List (List (Option ℝ)) × List (List Char)) :=
  match splitChar '~' formula with
  | [t, x] => (data.col (strip ws t)).bind fun theta =>
    if none ∈ theta then .error .valueError
    else
      let names := (splitChar '+' x).map (strip ws)
      (names.mapM data.col).bind fun cols =>
        if ∃ c ∈ cols, none ∈ c then .error .valueError else .ok (theta, cols, names)
  | _ => .error .valueError

/-- The argument `X`: a vector, a matrix given by its columns (each of the same length, `rows`), or an array with
another number of dimensions; `none` is a number that is not finite. -/
inductive XArg where
  | vec (x : List (Option ℝ))
  | mat (rows : ℕ) (cols : List (List (Option ℝ)))
  | other

/-- The finite numbers of an array; `none` if there is another. -/
def finite (l : List (Option ℝ)) : Option (List ℝ) := l.mapM id

/-- `CLRegression._prepare_design`: regression.py 157-173. -/
def prepareDesign (theta : List (Option ℝ)) (X : XArg) : Except PyErr (List ℝ × List (List ℝ)) :=
  if theta = [] then .error .valueError
  else match finite theta with
    | none => .error .valueError
    | some th =>
      let m : Option (ℕ × List (List (Option ℝ))) := match X with
        | .vec x => some (x.length, [x])
        | .mat rows cols => some (rows, cols)
        | .other => none
      match m with
      | none => .error .valueError
      | some (rows, cols) =>
        if rows ≠ th.length then .error .valueError
        else match cols.mapM finite with
          | none => .error .valueError
          | some c => .ok (th, c)

/-- `CLRegression._coerce_vector`: regression.py 146-154. -/
def coerceVector (v : Option (List (Option ℝ))) (length : ℕ) : Except PyErr (List ℝ) :=
  match v with
  | none => .ok (List.replicate length 0)
  | some a =>
    if a.length ≠ length then .error .valueError
    else match finite a with
      | none => .error .valueError
      | some r => .ok r

/-- The names `x0`, `x1`, … given to the predictors of an array: regression.py 127. -/
def defaultNames (p : ℕ) : List (List Char) := (List.range p).map fun i => 'x' :: (toString i).toList

/-- The arguments of `CLRegression` that describe the data and the start. -/
structure CLArgs where
  formula : Option (List Char)
  data : Option Frame
  theta : Option (List (Option ℝ))
  X : Option XArg
  modelType : String
  beta0 : Option (List (Option ℝ))
  alpha0 : Option ℝ
  gamma0 : Option (List (Option ℝ))

/-- `CLRegression.__init__`: regression.py 98-143. The rows of the data frame are as many as the response has. The
last step, `fit`, gets the model type, the response, the predictors (by column) and the starting values of `beta`,
`alpha` and `gamma`; the names of the predictors are returned with its result. -/
noncomputable def clConstruct {R : Type} (ws : Char → Bool)
    (fit : String → List ℝ → List (List ℝ) → List ℝ → ℝ → List ℝ → Except PyErr R) (a : CLArgs) :
    Except PyErr (List (List Char) × R) :=
  let inputs : Except PyErr (List (Option ℝ) × XArg × Option (List (List Char))) :=
    match a.formula, a.data, a.theta, a.X with
    | some (c :: f), some d, _, _ => (parseFormula ws (c :: f) d).map fun r => (r.1, .mat r.1.length r.2.1, some r.2.2)
    | _, _, some th, some X => .ok (th, X, none)
    | _, _, _, _ => .error .valueError
  inputs.bind fun i => (prepareDesign i.1 i.2.1).bind fun d =>
    let names := match i.2.2 with
      | none => defaultNames d.2.length
      | some ns => ns
    if a.modelType ≠ "mean" ∧ a.modelType ≠ "kappa" ∧ a.modelType ≠ "mixed" then .error .valueError
    else (coerceVector a.beta0 d.2.length).bind fun beta => (coerceVector a.gamma0 d.2.length).bind fun gamma =>
      (fit a.modelType d.1 d.2 beta (a.alpha0.getD 0) gamma).map fun r => (names, r)

end Verif
