import Verif.Model.Num

/-! # Calls of `rvs` (distributions.py): random states, argument binding, frozen distributions

The numbers are not modelled: generators, their seeds and the samplers are parameters. -/

set_option autoImplicit false

namespace Verif

/-! ## Random states -/

/-- numpy's random number generators: `Generator` objects have states in `G`, `RandomState` objects in `S`. -/
structure Rng (G S : Type) where
  /-- `np.random.default_rng(n)` -/
  generator : ℕ → G
  /-- `np.random.RandomState(n)`, and the global state after `np.random.seed(n)` -/
  randomState : ℕ → S
  /-- `s.randint(0, 2**32)` -/
  randint : S → ℕ × S

/-- The attribute `_random_state` of a distribution. scipy sets it to the global `RandomState`, or to another one if
the user assigns a seed to `random_state`; `_init_rng` replaces it by a `Generator`. -/
inductive RngSource (G S : Type) where
  | global
  | own (s : S)
  | gen (g : G)

/-- The state that unseeded calls use: the global `RandomState` of numpy and the distribution's attribute. -/
structure RngWorld (G S : Type) where
  global : S
  source : RngSource G S

/-- The argument `random_state`; objects of the caller by their state. -/
inductive RngArg (G S : Type) where
  | none
  | seed (n : ℕ)
  | gen (g : G)
  | rs (s : S)

/-- The two ways to get to the sampler: `rvs` calls `self._rvs` itself, or through `super().rvs` of scipy. -/
inductive RvsKind where
  | direct
  | scipy

variable {G S A : Type}

/-- A draw with `random_state=r`, `s` being a `RandomState`: `_init_rng` 247-252. -/
def drawFrom (R : Rng G S) (s : S) (sample : G → A × G) : A × G × S :=
  let d := R.randint s
  let x := sample (R.generator d.1)
  (x.1, x.2, d.2)

/-- `rvs(size, random_state)` for fixed parameters and size, with `_init_rng` (distributions.py 234-268): the sample, the
state afterwards, and the caller's object afterwards. `sample` is the rest of `_rvs`. With `RvsKind.scipy` the
method `rv_generic.rvs` of scipy comes between, which turns an integer into a `RandomState` and passes its own
`_random_state` explicitly if there is no argument. -/
def rvsCall (R : Rng G S) (k : RvsKind) (arg : RngArg G S) (sample : G → A × G) (w : RngWorld G S) :
    A × RngWorld G S × RngArg G S :=
  match arg with
  | .gen g => let x := sample g; (x.1, w, .gen x.2)
  | .rs s => let x := drawFrom R s sample; (x.1, w, .rs x.2.2)
  | .seed n =>
    match k with
    | .direct => ((sample (R.generator n)).1, w, .seed n)
    | .scipy => ((drawFrom R (R.randomState n) sample).1, w, .seed n)
  | .none =>
    match k, w.source with
    | _, .gen g => let x := sample g; (x.1, { w with source := .gen x.2 }, .none)
    | .direct, .global =>
      let x := drawFrom R w.global sample
      (x.1, { global := x.2.2, source := .gen x.2.1 }, .none)
    | .direct, .own s =>
      let x := drawFrom R s sample
      (x.1, { w with source := .gen x.2.1 }, .none)
    | .scipy, .global =>
      let x := drawFrom R w.global sample
      (x.1, { w with global := x.2.2 }, .none)
    | .scipy, .own s =>
      let x := drawFrom R s sample
      (x.1, { w with source := .own x.2.2 }, .none)

/-- What a session does: `np.random.seed(n)`, unseeded calls, calls with an integer as random state. -/
inductive RngOp (G A : Type) where
  | reseed (n : ℕ)
  | unseeded (sample : G → A × G)
  | seeded (n : ℕ) (sample : G → A × G)

/-- One step: the value, if it is a call, and the state afterwards. -/
def rngStep (R : Rng G S) (k : RvsKind) (w : RngWorld G S) : RngOp G A → Option A × RngWorld G S
  | .reseed n => (none, { w with global := R.randomState n })
  | .unseeded f => let r := rvsCall R k .none f w; (some r.1, r.2.1)
  | .seeded n f => let r := rvsCall R k (.seed n) f w; (some r.1, r.2.1)

/-- The values of a session, in order, and the state at its end. -/
def rngRun (R : Rng G S) (k : RvsKind) : RngWorld G S → List (RngOp G A) → List (Option A) × RngWorld G S
  | w, [] => ([], w)
  | w, op :: ops =>
    let r := rngStep R k w op
    let t := rngRun R k r.2 ops
    (r.1 :: t.1, t.2)

/-! ## Argument binding -/

/-- The distributions. -/
inductive RvsFamily where
  | circularuniform | triangular | cardioid | cartwright | wrapnorm | wrapcauchy | vonmises
  | vonmisesFlattopped | jonespewsey | jonespewseySineskewed | jonespewseyAsym | inverseBatschelet | wrapstable | katojones
  deriving DecidableEq

/-- The names of the parameters, in order. -/
def RvsFamily.shapes : RvsFamily → List String
  | .circularuniform => []
  | .triangular => ["rho"]
  | .cardioid => ["mu", "rho"]
  | .cartwright => ["mu", "zeta"]
  | .wrapnorm => ["mu", "rho"]
  | .wrapcauchy => ["mu", "rho"]
  | .vonmises => ["mu", "kappa"]
  | .vonmisesFlattopped => ["mu", "kappa", "nu"]
  | .jonespewsey => ["mu", "kappa", "psi"]
  | .jonespewseySineskewed => ["xi", "kappa", "psi", "lmbd"]
  | .jonespewseyAsym => ["xi", "kappa", "psi", "nu"]
  | .inverseBatschelet => ["xi", "kappa", "nu", "lmbd"]
  | .wrapstable => ["delta", "alpha", "beta", "gamma"]
  | .katojones => ["mu", "gamma", "rho", "lam"]

/-- The parameters without a default in the signature of `rvs`: distributions.py 5025, 5781, 6282. -/
def RvsFamily.required : RvsFamily → Bool
  | .jonespewsey | .jonespewseySineskewed | .jonespewseyAsym => true
  | _ => false

/-- Which of the two ways `rvs` goes: distributions.py 849-866, 1103-1154, 1550-1590, 2062-2097, 2622-2655, 3099-3126,
3658-3687 against 4258-4289, 5025-5047, 5781-5791, 6282-6291, 6971-7007, 7755-7762, 8399-8404. -/
def RvsFamily.kind : RvsFamily → RvsKind
  | .circularuniform | .triangular | .cardioid | .cartwright | .wrapnorm | .wrapcauchy | .vonmises => .direct
  | _ => .scipy

/-- Python's binding of positional and keyword arguments to the parameters `params` of a function; the arguments left
over go to `*args` and `**kwargs`, where there are such (`var`), and otherwise raise `TypeError`. -/
def bindArgs {V : Type} (params : List String) (var : Bool) (pos : List V) (kw : List (String × V)) :
    Except PyErr (List (String × V) × List (String × V)) :=
  let bound := params.zip pos
  if !var && params.length < pos.length then .error .typeError
  else if kw.any fun k => bound.any fun b => b.1 == k.1 then .error .typeError
  else if !var && kw.any fun k => !params.contains k.1 then .error .typeError
  else .ok (bound ++ kw.filter fun k => params.contains k.1, kw.filter fun k => !params.contains k.1)

/-- `rvs(*pos, **kw)` up to the call of the sampler: the parameters, the size and the random state that it gets.
`None` is `none`. distributions.py 849, 1103, 1550, 2062, 2622, 3099, 4258, 5025, 5781, 6282, 6971, 7755, 8399 (the
signatures), 3658-3687 (von Mises: the parameters only from `**kwargs`), and the checks for missing parameters. -/
def rvsBind {V : Type} (f : RvsFamily) (pos : List (Option V)) (kw : List (String × Option V)) :
    Except PyErr (List (Option V) × Option V × Option V) :=
  let get (b : List (String × Option V)) (n : String) : Option V := (b.lookup n).join
  match f with
  | .vonmises => (bindArgs ["size", "random_state"] true pos kw).bind fun b =>
    let shapes := ["mu", "kappa"].map (get b.2)
    if shapes.any Option.isNone then .error .valueError
    else .ok (shapes, get b.1 "size", get b.1 "random_state")
  | f => (bindArgs (f.shapes ++ ["size", "random_state"]) false pos kw).bind fun b =>
    let shapes := f.shapes.map (get b.1)
    if f.required && f.shapes.any fun n => (b.1.lookup n).isNone then .error .typeError
    else match f.kind with
      | .direct => if shapes.any Option.isNone then .error .valueError else .ok (shapes, get b.1 "size", get b.1 "random_state")
      | .scipy => .ok (shapes, get b.1 "size", get b.1 "random_state")

/-- `f(*args, **kwds).rvs(size, random_state)`: `CircularContinuous.freeze` (distributions.py 392-397) and
`rv_frozen.rvs` of scipy, which calls `rvs(*args, **kwds, size=size, random_state=random_state)`. -/
def frozenRvs {V : Type} (f : RvsFamily) (args : List (Option V)) (kwds : List (String × Option V))
    (size randomState : Option V) : Except PyErr (List (Option V) × Option V × Option V) :=
  rvsBind f args (kwds ++ [("size", size), ("random_state", randomState)])

end Verif
