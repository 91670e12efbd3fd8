import Verif.Model.Clustering
import Verif.Model.DistKatoJones

/-!
# Model of the component fits of `MoKJ` and of prediction grids: `pycircstat2/clustering.py`

The optimiser and the random draws are parameters. A `nan` mean direction is `none`; once a parameter of a component
is `nan` all responsibilities of the next pass are `nan`, and the weight check of the next moment fit raises
`ValueError` (distributions.py 8453-8455).
-/

namespace Verif

open Real

set_option autoImplicit false

/-- `MoKJ._constraint_value(gamma, rho, lam)`: clustering.py 622-625. -/
noncomputable def mokjConstraint (gamma rho lam : ℝ) : ℝ := (rho * cos lam - gamma) ^ 2 + (rho * sin lam) ^ 2

/-- `MoKJ._regularise_params(params)`: clustering.py 627-648; margins 544-548. -/
noncomputable def mokjRegularise (q : KJ) : KJ :=
  let mu := pymod q.mu (2 * π)
  let gamma1 := clip q.gamma (1 / 10 ^ 4) (1 - 5 / 10 ^ 4)
  let rho := clip q.rho 0 (1 - 5 / 10 ^ 4)
  let lam := pymod q.lam (2 * π)
  let gamma := if (1 - gamma1) ^ 2 ≤ 0 then 1 - 5 / 10 ^ 4 else gamma1
  let limit := (1 - gamma) ^ 2
  if limit - 5 / 10 ^ 4 ≤ mokjConstraint gamma rho lam then
    let aux := kjAux gamma rho lam
    let s := clip aux.1 0 (1 - 5 / 10 ^ 3) * (1 - 5 / 10 ^ 3)
    let rl := kjFromAux gamma s aux.2
    ⟨mu, gamma, clip rl.1 0 (1 - 5 / 10 ^ 4), pymod rl.2 (2 * π)⟩
  else ⟨mu, gamma, rho, lam⟩

/-- `MoKJ._violates_or_degenerate(params)` for finite parameters: clustering.py 650-659. -/
def mokjViolates (q : KJ) : Prop :=
  q.gamma ≤ 1 / 10 ^ 4 ∨ 1 - 5 / 10 ^ 4 ≤ q.rho ∨ (1 - q.gamma) ^ 2 ≤ 0 ∨
    (1 - q.gamma) ^ 2 - 5 / 10 ^ 4 / 2 ≤ mokjConstraint q.gamma q.rho q.lam

/-- The regularised moment estimates: clustering.py 613-614, 742-744. `none`: the mean direction is `nan`. -/
noncomputable def mokjMoments (data : List ℝ) (weights : Option (List ℝ)) : Except PyErr (Option KJ) :=
  (kjFitMoments data weights).map fun r => r.1.map fun mu => mokjRegularise ⟨mu, r.2.1, r.2.2.1, r.2.2.2⟩

open Classical in
/-- The loop over the two starts: clustering.py 753-770. `mle` is `katojones.fit(method="mle")` from a start; an
exception moves on to the next start. A `nan` start is taken to fail. -/
noncomputable def mokjTry (mle : KJ → Except PyErr KJ) : List (Option KJ) → Option KJ
  | [] => none
  | none :: rest => mokjTry mle rest
  | some st :: rest =>
    match mle st with
    | .error _ => mokjTry mle rest
    | .ok est => if mokjViolates (mokjRegularise est) then mokjTry mle rest else some (mokjRegularise est)

/-- One component of the M-step of `MoKJ`: clustering.py 738-775. `minimize` is scipy's optimiser. -/
noncomputable def mokjComp {n : ℕ} (minimize : String → ((Fin 4 → ℝ) → ℝ) → (Fin 4 → ℝ) → MinResult 4) (minW : ℝ)
    (a w : Fin n → ℝ) (th : KJ) : Except PyErr (Option KJ) :=
  (mokjMoments (List.ofFn a) (some (List.ofFn w))).map fun moment =>
    if ∑ i, w i ≤ minW * n then moment
    else
      match mokjTry (fun st => kjFitMle minimize (List.ofFn a) (some (List.ofFn w)) st "L-BFGS-B")
          [some (mokjRegularise th), moment] with
      | some est => some est
      | none => moment

/-- One pass of the loop of `MoKJ.fit`: clustering.py 722-782. `none`: a component is `nan`. -/
noncomputable def mokjPass {n K : ℕ} (minimize : String → ((Fin 4 → ℝ) → ℝ) → (Fin 4 → ℝ) → MinResult 4) (minW : ℝ)
    (logpdf : KJ → ℝ → ℝ) (a : Fin n → ℝ) (s : MixState KJ K) : Except PyErr (Option (ℝ × MixState KJ K)) :=
  let g := resp (logGamma lwClip logpdf a s.p s.th)
  (allOk fun c => mokjComp minimize minW a (g c) (s.th c)).map fun ths => (allSome ths).map fun th =>
    let p := weightsClip minW fun c => ∑ i, g c i
    (mixNLL (logGamma lwClip logpdf a p th), ⟨p, th⟩)

open Classical in
/-- The labels that `MoKJ._initialize` starts from: clustering.py 576-602. `kmeans` is the result of the
pre-clustering, `none` if it raised; it is not used unless every label occurs. -/
noncomputable def mokjLabels {n K : ℕ} (kmeans : Option (Fin n → Fin K)) (draws : List (Fin n → Fin K)) :
    Except PyErr (Fin n → Fin K) :=
  if n < K then .error .valueError
  else match kmeans.filter fun l => decide (∀ c, ∃ i, l i = c) with
    | some l => .ok l
    | none => initLabels 100 draws

open Classical in
/-- The initial parameters of `MoKJ`: clustering.py 604-618. -/
noncomputable def mokjInit {n K : ℕ} (a : Fin n → ℝ) (labels : Fin n → Fin K) :
    Except PyErr (Option (MixState KJ K)) :=
  (allOk fun c => mokjMoments ((List.finRange n).filter (fun i => decide (labels i = c)) |>.map a) none).map
    fun ths => (allSome ths).map fun th => ⟨fun _ => 1 / K, th⟩

/-- `MoKJ.fit` up to the final responsibilities: clustering.py 705-800. A `nan` among the initial parameters makes
the first pass raise `ValueError`. -/
noncomputable def mokjFit {n K : ℕ} (minimize : String → ((Fin 4 → ℝ) → ℝ) → (Fin 4 → ℝ) → MinResult 4) (minW : ℝ)
    (logpdf : KJ → ℝ → ℝ) (unit : String) (fullCycle : ℝ) (burnin nIters : ℕ) (threshold : ℝ)
    (prev : Bool × Option ℕ) (kmeans : Option (Fin n → Fin K)) (draws : List (Fin n → Fin K)) (X : Fin n → ℝ) :
    Except PyErr (Option (EMResult (MixState KJ K))) :=
  if n = 0 then .error .valueError
  else
    let a := fun i => toRad unit fullCycle (X i)
    (mokjLabels kmeans draws).bind fun labels => (mokjInit a labels).bind fun o => match o with
      | none => .error .valueError
      | some s => emFit (mokjPass minimize minW logpdf a) burnin threshold prev nIters s

/-- The grid used by `predict_density` when no points are given, after the conversion to radians: clustering.py
386-391 (`MovM`) and 872-877 (`MoKJ`) with `m = 400`, 1236-1242 (`MoCD`) with `m = 200`; `i < m`. `unit` and
`fullCycle` are the arguments of the call, or the attributes of the object. -/
noncomputable def defaultGrid (unit : String) (fullCycle : ℝ) (m i : ℕ) : ℝ :=
  let x := 2 * π * i / m
  toRad unit fullCycle (if unit = "degree" then x * (180 / π) else x)

end Verif
