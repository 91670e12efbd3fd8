import Verif.Model.Range
import Verif.Model.Dist
import Mathlib.Data.List.OfFn
import Mathlib.Algebra.BigOperators.Fin

/-!
# Model of `pycircstat2/clustering.py`

The component log-densities, the component fits of `MoCD` and `MoKJ`, and the random draws are parameters.
Printing, plotting and the inspection of signatures are not modelled.
-/

namespace Verif

open Real

set_option autoImplicit false

/-! ## Mixtures: responsibilities -/

section Mixture

variable {Θ : Type} {K n : ℕ}

/-- `_log_gamma`: clustering.py 298-311 (`MovM`), 1110-1122 (`MoCD`), 681-685 (`MoKJ`). `lw` is the logarithm of
the weight: `log(p + 1e-32)` in the first two, `log(clip(p, 1e-300, None))` in the third. -/
noncomputable def logGamma (lw : ℝ → ℝ) (logpdf : Θ → ℝ → ℝ) (a : Fin n → ℝ) (p : Fin K → ℝ) (th : Fin K → Θ)
    (c : Fin K) (i : Fin n) : ℝ := lw (p c) + logpdf (th c) (a i)

/-- The logarithm of the weight in `MovM` and `MoCD`: clustering.py 307, 1118. -/
noncomputable def lwOffset (p : ℝ) : ℝ := log (p + 1 / 10 ^ 32)

/-- The logarithm of the weight in `MoKJ`: clustering.py 683. -/
noncomputable def lwClip (p : ℝ) : ℝ := log (max p (1 / 10 ^ 300))

/-- `np.logaddexp.reduce(lg, axis=0)` and `logsumexp(lg, axis=0)`. -/
noncomputable def logNorm (lg : Fin K → Fin n → ℝ) (i : Fin n) : ℝ := log (∑ c, exp (lg c i))

/-- The responsibilities `np.exp(lg - log_norm)`: clustering.py 217, 420, 726, 848, 1149, 1204. -/
noncomputable def resp (lg : Fin K → Fin n → ℝ) (c : Fin K) (i : Fin n) : ℝ := exp (lg c i - logNorm lg i)

/-- `-np.sum(log_norm)`: clustering.py 239, 341, 690, 1163. -/
noncomputable def mixNLL (lg : Fin K → Fin n → ℝ) : ℝ := -∑ i, logNorm lg i

/-- The parameters of a mixture: weights and component parameters. -/
structure MixState (Θ : Type) (K : ℕ) where
  p : Fin K → ℝ
  th : Fin K → Θ

/-- The weights of `MovM` and `MoCD`: clustering.py 220-221, 1151-1152. -/
noncomputable def mixWeights (s : Fin K → ℝ) (c : Fin K) : ℝ := s c / ∑ d, s d

/-- The weights of `MoKJ`: clustering.py 729-731. -/
noncomputable def weightsClip (minW : ℝ) (s : Fin K → ℝ) (c : Fin K) : ℝ := max (s c) minW / ∑ d, max (s d) minW

/-- All entries of a tuple, if all are defined. -/
def allSome {Θ : Type} : ∀ {K : ℕ}, (Fin K → Option Θ) → Option (Fin K → Θ)
  | 0, _ => some Fin.elim0
  | _ + 1, f => (f 0).bind fun x => (allSome fun i => f i.succ).map fun g => Fin.cons x g

/-- One component of the M-step of `MovM`: clustering.py 225-235. `none`: the mean direction is `nan`. -/
noncomputable def movmComp (a : Fin n → ℝ) (w : Fin n → ℝ) (th : ℝ × ℝ) : Option (ℝ × ℝ) :=
  if isclose (∑ i, w i) 0 rtolDefault atolDefault then some (th.1, max (circKappa 0 none) (1 / 10 ^ 3))
  else (circMeanAndR (List.ofFn a) (List.ofFn w)).bind fun mr =>
    mr.1.map fun m => (m, max (circKappa mr.2 none) (1 / 10 ^ 3))

/-- One pass of the loop of `MovM.fit`: clustering.py 214-240; returns the negative log-likelihood before the
update and the new parameters, `none` when a mean direction is `nan` (then every later number is `nan`). -/
noncomputable def movmStep (logpdf : ℝ × ℝ → ℝ → ℝ) (a : Fin n → ℝ) (s : MixState (ℝ × ℝ) K) :
    Option (ℝ × MixState (ℝ × ℝ) K) :=
  let lg := logGamma lwOffset logpdf a s.p s.th
  let g := resp lg
  (allSome fun c => movmComp a (g c) (s.th c)).map fun th =>
    (mixNLL lg, ⟨mixWeights fun c => ∑ i, g c i, th⟩)

/-- One component of the M-step of `MoCD`: clustering.py 1155-1160 with `_fit_component` 1043-1086. `fitc` is
the weighted fit by the first method that works; it may raise `RuntimeError`. -/
noncomputable def mocdComp (fitc : (Fin n → ℝ) → Except PyErr Θ) (w : Fin n → ℝ) (th : Θ) : Except PyErr Θ :=
  if isclose (∑ i, w i) 0 rtolDefault atolDefault then .ok th
  else if ∑ i, w i ≤ 1 / 10 ^ 12 then .ok th
  else fitc w

/-- All results of a tuple of computations, or the first error. -/
def allOk {Θ : Type} : ∀ {K : ℕ}, (Fin K → Except PyErr Θ) → Except PyErr (Fin K → Θ)
  | 0, _ => .ok Fin.elim0
  | _ + 1, f => (f 0).bind fun x => (allOk fun i => f i.succ).map fun g => Fin.cons x g

/-- One pass of the loop of `MoCD.fit`: clustering.py 1146-1164. -/
noncomputable def mocdStep (logpdf : Θ → ℝ → ℝ) (fitc : (Fin n → ℝ) → Except PyErr Θ) (a : Fin n → ℝ)
    (s : MixState Θ K) : Except PyErr (ℝ × MixState Θ K) :=
  let lg := logGamma lwOffset logpdf a s.p s.th
  let g := resp lg
  (allOk fun c => mocdComp fitc (g c) (s.th c)).map fun th => (mixNLL lg, ⟨mixWeights fun c => ∑ i, g c i, th⟩)

/-- One pass of the loop of `MoKJ.fit`: clustering.py 722-782. `fitc` is the component fit of lines 739-776. The
negative log-likelihood is that of the new parameters. -/
noncomputable def mokjStep (minW : ℝ) (logpdf : Θ → ℝ → ℝ) (fitc : (Fin n → ℝ) → Θ → Except PyErr Θ) (a : Fin n → ℝ)
    (s : MixState Θ K) : Except PyErr (ℝ × MixState Θ K) :=
  let lg := logGamma lwClip logpdf a s.p s.th
  let g := resp lg
  (allOk fun c => fitc (g c) (s.th c)).map fun th =>
    let p := weightsClip minW fun c => ∑ i, g c i
    (mixNLL (logGamma lwClip logpdf a p th), ⟨p, th⟩)

end Mixture

/-! ## Mixtures: the loop -/

/-- The attributes set by `fit`: final parameters, `nLL`, `converged`, `converged_iters`. -/
structure EMResult (S : Type) where
  state : S
  nLL : List ℝ
  converged : Bool
  iters : Option ℕ

/-- The loop of `fit`: clustering.py 214-261, 722-799, 1146-1183. `prev` are the attributes `converged` and
`converged_iters` before the call: the constructor sets them to `False` and `None` (110-111), `fit` only ever
sets them to `True` and a number. `it` is the index of the next pass, `hist` the recorded values, `last` the
previous one; the first number is the number of passes left. -/
noncomputable def emLoop {S : Type} (step : S → Except PyErr (Option (ℝ × S))) (burnin : ℕ) (threshold : ℝ)
    (prev : Bool × Option ℕ) :
    ℕ → ℕ → Option ℝ → List ℝ → S → Except PyErr (Option (EMResult S))
  | 0, _, _, hist, s => .ok (some ⟨s, hist, prev.1, prev.2⟩)
  | k + 1, it, last, hist, s =>
    (step s).bind fun o => match o with
      | none => .ok none
      | some (v, s') =>
        if burnin < it ∧ ∃ l, last = some l ∧ |v - l| < threshold then
          .ok (some ⟨s', hist ++ [v], true, some (it + 1)⟩)
        else emLoop step burnin threshold prev k (it + 1) (some v) (hist ++ [v]) s'

/-- The whole loop. -/
noncomputable def emFit {S : Type} (step : S → Except PyErr (Option (ℝ × S))) (burnin : ℕ) (threshold : ℝ)
    (prev : Bool × Option ℕ) (nIters : ℕ) (s : S) : Except PyErr (Option (EMResult S)) :=
  emLoop step burnin threshold prev nIters 0 none [] s

/-- The checks of `MovM.__init__` and `MoKJ.__init__`: clustering.py 91-100, 523-532; `MoCD.__init__` makes the
same checks in another order (931-940). -/
noncomputable def mixCheck (burnin nClusters nIters : ℤ) (threshold : ℝ) (unit : String) : Except PyErr Unit :=
  if burnin < 0 then .error .valueError
  else if nClusters ≤ 0 then .error .valueError
  else if nIters ≤ 0 then .error .valueError
  else if threshold ≤ 0 then .error .valueError
  else if unit ≠ "degree" ∧ unit ≠ "radian" then .error .valueError
  else .ok ()

open Classical in
/-- The initial labels: the first of at most `attempts` draws that leaves no component empty: clustering.py
148-160 (`MovM`, 100 attempts), 1089-1098 (`MoCD`, 128 attempts). -/
noncomputable def initLabels {n K : ℕ} (attempts : ℕ) (draws : List (Fin n → Fin K)) : Except PyErr (Fin n → Fin K) :=
  if n < K then .error .valueError
  else match (draws.take attempts).find? fun l => decide (∀ c, ∃ i, l i = c) with
    | some l => .ok l
    | none => .error .runtimeError

open Classical in
/-- The initial parameters of `MovM`: clustering.py 162-177. -/
noncomputable def movmInit {n K : ℕ} (a : Fin n → ℝ) (labels : Fin n → Fin K) : Option (MixState (ℝ × ℝ) K) :=
  (allSome fun c =>
    let subset := (List.finRange n).filter (fun i => decide (labels i = c)) |>.map a
    (circMeanAndR subset (ones subset)).bind fun mr => mr.1.map fun m => (m, max (circKappa mr.2 none) (1 / 10 ^ 3))).map
  fun th => ⟨fun _ => 1 / K, th⟩

/-- Conversion of the data: `X if unit == "radian" else data2rad(X, k=full_cycle)`: clustering.py 201, 708,
1132, 1200, 1392. -/
noncomputable def toRad (unit : String) (fullCycle x : ℝ) : ℝ := if unit = "radian" then x else data2rad x fullCycle

/-- `MovM.fit` up to the final responsibilities: clustering.py 197-267. The result is `none` when every number
is `nan`. -/
noncomputable def movmFit {n K : ℕ} (logpdf : ℝ × ℝ → ℝ → ℝ) (unit : String) (fullCycle : ℝ) (burnin nIters : ℕ)
    (threshold : ℝ) (prev : Bool × Option ℕ) (draws : List (Fin n → Fin K)) (X : Fin n → ℝ) :
    Except PyErr (Option (EMResult (MixState (ℝ × ℝ) K))) :=
  if n = 0 then .error .valueError
  else
    let a := fun i => toRad unit fullCycle (X i)
    (initLabels 100 draws).bind fun labels => match movmInit a labels with
      | none => .ok none
      | some s => emFit (fun s => .ok (movmStep logpdf a s)) burnin threshold prev nIters s

open Classical in
/-- The initial parameters of `MoCD`: clustering.py 1100-1108; `fit1` fits one component to unweighted data. -/
noncomputable def mocdInit {Θ : Type} {n K : ℕ} (fit1 : List ℝ → Except PyErr Θ) (a : Fin n → ℝ)
    (labels : Fin n → Fin K) : Except PyErr (MixState Θ K) :=
  (allOk fun c => fit1 ((List.finRange n).filter (fun i => decide (labels i = c)) |>.map a)).map
    fun th => ⟨fun _ => 1 / K, th⟩

/-- `MoCD.fit` up to the final responsibilities: clustering.py 1127-1187. -/
noncomputable def mocdFit {Θ : Type} {n K : ℕ} (logpdf : Θ → ℝ → ℝ) (fit1 : List ℝ → Except PyErr Θ)
    (fitc : (Fin n → ℝ) → Except PyErr Θ) (unit : String) (fullCycle : ℝ) (burnin nIters : ℕ)
    (threshold : ℝ) (prev : Bool × Option ℕ) (draws : List (Fin n → Fin K)) (X : Fin n → ℝ) :
    Except PyErr (Option (EMResult (MixState Θ K))) :=
  if n = 0 then .error .valueError
  else
    let a := fun i => toRad unit fullCycle (X i)
    (initLabels 128 draws).bind fun labels => (mocdInit fit1 a labels).bind fun s =>
      emFit (fun s => (mocdStep logpdf fitc a s).map some) burnin threshold prev nIters s

/-- `np.argmax`/`argmin` without `nan`: the first index with the best value. -/
noncomputable def argminL : List ℝ → ℕ
  | [] => 0
  | x :: xs => if xs.all (fun y => decide (x ≤ y)) then 0 else argminL xs + 1

/-- The labels `gamma.argmax(axis=0)`: clustering.py 274, 442, 815, 857, 1192, 1208. -/
noncomputable def mixLabels {K n : ℕ} (g : Fin K → Fin n → ℝ) (i : Fin n) : ℕ :=
  argminL (List.ofFn fun c => -g c i)

/-- `predict_density` at one angle: clustering.py 393-399, 880-883, 1244-1248. -/
noncomputable def mixDensity {Θ : Type} {K : ℕ} (pdf : Θ → ℝ → ℝ) (s : MixState Θ K) (x : ℝ) : ℝ :=
  ∑ c, s.p c * pdf (s.th c) x

/-- `MovM.compute_BIC`: clustering.py 343-358. -/
noncomputable def movmBIC {K n : ℕ} (logpdf : ℝ × ℝ → ℝ → ℝ) (a : Fin n → ℝ) (s : MixState (ℝ × ℝ) K) : ℝ :=
  2 * mixNLL (logGamma lwOffset logpdf a s.p s.th) + log n * ((K : ℝ) * 3 - 1)

/-- `MoKJ.compute_BIC`: clustering.py 820-829. -/
noncomputable def mokjBIC {Θ : Type} {K n : ℕ} (logpdf : Θ → ℝ → ℝ) (a : Fin n → ℝ) (s : MixState Θ K) : ℝ :=
  2 * mixNLL (logGamma lwClip logpdf a s.p s.th) + log n * (5 * (K : ℝ) - 1)

/-- `MoCD.score_samples` at one observation: clustering.py 1210-1217. The argument is converted. -/
noncomputable def mocdScoreSample {Θ : Type} {K : ℕ} (logpdf : Θ → ℝ → ℝ) (unit : String) (fullCycle : ℝ)
    (s : MixState Θ K) (x : ℝ) : ℝ :=
  logNorm (logGamma lwOffset logpdf (fun _ : Fin 1 => toRad unit fullCycle x) s.p s.th) 0

/-- `MoCD.bic`: clustering.py 1250-1257. `alpha` is the attribute `self.alpha`, which `fit` stores after the
conversion to radians (1132-1135); `m` is the number of parameters of a component. -/
noncomputable def mocdBIC {Θ : Type} {K n : ℕ} (logpdf : Θ → ℝ → ℝ) (unit : String) (fullCycle : ℝ) (m : ℕ)
    (alpha : Fin n → ℝ) (s : MixState Θ K) : ℝ :=
  let nLL := -∑ i, mocdScoreSample logpdf unit fullCycle s (alpha i)
  2 * nLL + log n * ((K : ℝ) * m + (K - 1))

/-! ## Hierarchical clustering -/

/-- A cluster: its id and the indices of its observations. A Python dict of clusters is a list of these in
insertion order. -/
abbrev Cluster := ℕ × List ℕ

/-- `circ_dist` for a metric accepted by the constructor (clustering.py 1328-1331). -/
noncomputable def hacDist (metric : String) (x y : ℝ) : ℝ :=
  match circDist x y metric with
  | .ok d => d
  | .error _ => 0

/-- The pairs visited by the double loop: clustering.py 1413-1414. -/
def listPairs {α : Type} : List α → List (α × α)
  | [] => []
  | x :: xs => xs.map (fun y => (x, y)) ++ listPairs xs

/-- One comparison in the search for the best pair: clustering.py 1415-1418; an undefined distance is `nan`,
which is never smaller. -/
noncomputable def pairStep {α : Type} (dist : α → α → Option ℝ) (best : Option (ℝ × α × α)) (pr : α × α) :
    Option (ℝ × α × α) :=
  match dist pr.1 pr.2, best with
  | none, best => best
  | some d, none => some (d, pr)
  | some d, some b => if d < b.1 then some (d, pr) else some b

/-- The search for the best pair: clustering.py 1411-1418. -/
noncomputable def bestPair {α : Type} (dist : α → α → Option ℝ) (l : List α) : Option (ℝ × α × α) :=
  (listPairs l).foldl (pairStep dist) none

/-- `circ_mean_and_r(alpha[indices])[0]`: clustering.py 1408. -/
noncomputable def clusterMean (alpha : List ℝ) (indices : List ℕ) : Option ℝ :=
  let sub := indices.map fun i => alpha.getD i 0
  (circMeanAndR sub (ones sub)).bind fun mr => mr.1

/-- The distance of two clusters: clustering.py 1415. -/
noncomputable def clusterDist (metric : String) (alpha : List ℝ) (x y : Cluster) : Option ℝ :=
  match clusterMean alpha x.2, clusterMean alpha y.2 with
  | some a, some b => some (hacDist metric a b)
  | _, _ => none

/-- A row of `merges_`: the two ids, the distance, the new size. -/
structure Merge where
  left : ℕ
  right : ℕ
  dist : ℝ
  size : ℕ

/-- The merge loop: clustering.py 1407-1430. The first argument bounds the number of passes; each pass removes a
cluster, so the number of clusters is enough. -/
noncomputable def hacLoop (dist : Cluster → Cluster → Option ℝ) (k : ℕ) :
    ℕ → ℕ → List Cluster → List Merge → List Cluster × List Merge
  | 0, _, cl, ms => (cl, ms)
  | fuel + 1, nextId, cl, ms =>
    if cl.length ≤ k then (cl, ms)
    else match bestPair dist cl with
      | none => (cl, ms)
      | some (d, x, y) =>
        hacLoop dist k fuel (nextId + 1)
          ((cl.filter fun c => c.1 ≠ x.1 ∧ c.1 ≠ y.1) ++ [(nextId, x.2 ++ y.2)])
          (ms ++ [⟨x.1, y.1, |d|, (x.2 ++ y.2).length⟩])

/-- `_initialize_clusters`: clustering.py 1347-1373; `pre` are the labels of the preliminary k-means, if
requested and useful. -/
def hacInit (n : ℕ) (pre : Option (ℕ × List ℕ)) : List Cluster :=
  let singletons := (List.range n).map fun i => (i, [i])
  match pre with
  | none => singletons
  | some (m, labels) =>
    if m ≥ n then singletons
    else
      let cl := (List.range m).filterMap fun c =>
        let idx := (List.range n).filter fun i => labels.getD i 0 = c
        if idx = [] then none else some (c, idx)
      if cl = [] then singletons else cl

/-- The label written last for observation `i`: clustering.py 1436-1438; `none` if never written. -/
def labelOf : List Cluster → ℕ → ℕ → Option ℕ
  | [], _, _ => none
  | c :: cs, pos, i => match labelOf cs (pos + 1) i with
    | some l => some l
    | none => if i ∈ c.2 then some pos else none

/-- The attributes set by `CircHAC.fit`. -/
structure HACResult where
  labels : List (Option ℕ)
  centers : List (Option ℝ)
  r : List (Option ℝ)
  merges : List Merge

/-- `CircHAC.fit`: clustering.py 1388-1447 on angles in radians. -/
noncomputable def hacFit (metric : String) (k : ℕ) (pre : Option (ℕ × List ℕ)) (alpha : List ℝ) :
    Except PyErr HACResult :=
  let n := alpha.length
  if n = 0 then .error .valueError
  else if n ≤ k then
    .ok ⟨(List.range n).map some, alpha.map some, alpha.map fun _ => some 1, []⟩
  else
    let cl := hacInit n pre
    let next := (cl.map Prod.fst).foldl max 0 + 1
    let res := hacLoop (clusterDist metric alpha) k cl.length next cl []
    .ok ⟨(List.range n).map (labelOf res.1 0), res.1.map fun c => clusterMean alpha c.2,
      res.1.map fun c =>
        let sub := c.2.map fun i => alpha.getD i 0
        (circMeanAndR sub (ones sub)).map fun mr => mr.2,
      res.2⟩

/-! ## K-means -/

/-- `np.argmin` with `nan`: the first `nan` if there is one, otherwise the first smallest entry. -/
noncomputable def npArgmin (l : List (Option ℝ)) : ℕ :=
  match l.findIdx? Option.isNone with
  | some i => i
  | none => argminL (l.map fun o => o.getD 0)

/-- The distance from an angle to a centre; a centre may be `nan`. -/
noncomputable def kmDist (metric : String) (x : ℝ) (center : Option ℝ) : Option ℝ :=
  center.map fun c => |hacDist metric x c|

/-- `dist_mat.argmin(axis=0)` for one angle: clustering.py 1687-1692, 1753-1756. -/
noncomputable def nearest (metric : String) (centers : List (Option ℝ)) (x : ℝ) : ℕ :=
  npArgmin (centers.map (kmDist metric x))

/-- The new centres: clustering.py 1695-1704. -/
noncomputable def newCenters (alpha : List ℝ) (labels : List ℕ) (centers : List (Option ℝ)) : List (Option ℝ) :=
  centers.mapIdx fun c old =>
    let members := (List.zip alpha labels).filterMap fun p => if p.2 = c then some p.1 else none
    if members = [] then old else (circMeanAndR members (ones members)).bind fun mr => mr.1

/-- `shift`: clustering.py 1707. -/
noncomputable def centerShift (old new : List (Option ℝ)) : Option ℝ :=
  ((List.zip old new).mapM fun (p : Option ℝ × Option ℝ) => p.1.bind fun a => p.2.map fun b =>
    |Complex.arg (Complex.exp (Complex.I * a) / Complex.exp (Complex.I * b))|).map List.sum

/-- The loop: clustering.py 1684-1715. -/
noncomputable def kmLoop (metric : String) (tol : ℝ) (alpha : List ℝ) :
    ℕ → List ℕ → List (Option ℝ) → List ℕ × List (Option ℝ)
  | 0, labels, centers => (labels, centers)
  | k + 1, _, centers =>
    let labels := alpha.map (nearest metric centers)
    let new := newCenters alpha labels centers
    if ∃ s, centerShift centers new = some s ∧ s < tol then (labels, new)
    else kmLoop metric tol alpha k labels new

/-- The attributes set by `CircKMeans.fit`. -/
structure KMResult where
  labels : List ℕ
  centers : List (Option ℝ)
  inertia : Option ℝ

/-- `inertia_`: clustering.py 1722-1728. -/
noncomputable def kmInertia (metric : String) (alpha : List ℝ) (labels : List ℕ) (centers : List (Option ℝ)) :
    Option ℝ :=
  ((List.zip alpha labels).mapM fun (p : ℝ × ℕ) => kmDist metric p.1 (centers.getD p.2 none)).map List.sum

/-- `CircKMeans.fit`: clustering.py 1664-1729 on angles in radians; `init` are the drawn indices. -/
noncomputable def kmFit (metric : String) (k maxIter : ℕ) (tol : ℝ) (init : List ℕ) (alpha : List ℝ) : KMResult :=
  if alpha.length < k then ⟨List.range alpha.length, alpha.map some, some 0⟩
  else
    let res := kmLoop metric tol alpha maxIter (alpha.map fun _ => 0) (init.map fun i => some (alpha.getD i 0))
    ⟨res.1, res.2, kmInertia metric alpha res.1 res.2⟩

/-- `CircKMeans.predict`: clustering.py 1746-1756 on angles in radians. With fewer centres than `n_clusters` the
loop reads past the end. -/
noncomputable def kmPredict (metric : String) (k : ℕ) (centers : List (Option ℝ)) (x : List ℝ) :
    Except PyErr (List ℕ) :=
  if centers.length < k then .error .indexError else .ok (x.map (nearest metric (centers.take k)))

/-! ## Silhouette -/

section Silhouette

variable {n : ℕ}

open Classical in
/-- The mean distance from `i` to the observations with label `c`: clustering.py 1565, 1573. -/
noncomputable def meanDistTo (d : Fin n → Fin n → ℝ) (labels : Fin n → ℕ) (i : Fin n) (c : ℕ) : ℝ :=
  (∑ j ∈ Finset.univ.filter (fun j => labels j = c), d i j) / (Finset.univ.filter fun j => labels j = c).card

open Classical in
/-- The silhouette value of one observation: clustering.py 1560-1577; `others` are the other labels in
increasing order. With no other label `b_i` stays `inf` and the value is `nan`. -/
noncomputable def silhouetteOf (d : Fin n → Fin n → ℝ) (labels : Fin n → ℕ) (i : Fin n) : Option ℝ :=
  let a := if 1 < (Finset.univ.filter fun j => labels j = labels i).card then meanDistTo d labels i (labels i) else 0
  let others := ((Finset.univ.image labels).erase (labels i)).sort (· ≤ ·)
  (minL (others.map (meanDistTo d labels i))).map fun b => if 0 < max a b then (b - a) / max a b else 0

/-- `CircHAC.silhouette_score`: clustering.py 1532-1579. -/
noncomputable def silhouetteScore (metric : String) (alpha : Fin n → ℝ) (labels : Fin n → ℕ) : Option ℝ :=
  if n < 2 then some 0
  else
    let d := fun i j => |hacDist metric (alpha i) (alpha j)|
    (allSome fun i => silhouetteOf d labels i).map fun v => (∑ i, v i) / n

end Silhouette

end Verif
