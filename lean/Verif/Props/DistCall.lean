import Verif.Model.DistCall
import Mathlib.Data.List.Basic
import Mathlib.Tactic.FinCases

/-! # C122, C123: random states and arguments of `rvs` -/

set_option autoImplicit false

namespace Verif.Props

open Verif

variable {G S A : Type}

/-! ## C122: random states -/

/-- A call with an integer as `random_state` returns a value that depends on this integer only, not on what was
drawn before, and it changes nothing for later calls. -/
theorem C122_seeded (R : Rng G S) (k : RvsKind) (n : ℕ) (f : G → A × G) :
    ∃ v, ∀ w, rvsCall R k (.seed n) f w = (v, w, .seed n) := by
  cases k
  · exact ⟨_, fun w => rfl⟩
  · exact ⟨_, fun w => rfl⟩

/-- With a `Generator` as `random_state`, the caller's generator is used and left in the state in which the sampler leaves it, so that
successive calls continue its stream; nothing else changes. -/
theorem C122_generator (R : Rng G S) (k : RvsKind) (g : G) (f : G → A × G) (w : RngWorld G S) :
    rvsCall R k (.gen g) f w = ((f g).1, w, .gen (f g).2) := by
  cases k <;> rfl

/-- With a `RandomState` as `random_state`, the call takes exactly one integer of it, whatever the distribution and the
size of the sample, and the value depends on this integer only. -/
theorem C122_random_state (R : Rng G S) (k : RvsKind) (s : S) (f : G → A × G) (w : RngWorld G S) :
    rvsCall R k (.rs s) f w = ((f (R.generator (R.randint s).1)).1, w, .rs (R.randint s).2) := by
  cases k <;> rfl

/-- Specification: the operation is a call with an integer seed. -/
def isSeeded : RngOp G A → Bool
  | .seeded _ _ => true
  | _ => false

/-- Specification: the operation is `np.random.seed`. -/
def isReseed : RngOp G A → Bool
  | .reseed _ => true
  | _ => false

/-- Calls with integer seeds, wherever they occur in a session, do not affect the others: without them the session
ends in the same state. -/
theorem C122_interleaved (R : Rng G S) (k : RvsKind) (w : RngWorld G S) (ops : List (RngOp G A)) :
    (rngRun R k w ops).2 = (rngRun R k w (ops.filter fun o => !isSeeded o)).2 := by
  induction ops generalizing w with
  | nil => rfl
  | cons o ops ih =>
    cases o with
    | reseed n => simpa [isSeeded, rngRun] using ih _
    | unseeded f => simpa [isSeeded, rngRun] using ih _
    | seeded n f =>
      obtain ⟨v, hv⟩ := C122_seeded R k n f
      simpa [isSeeded, rngRun, rngStep, hv] using ih w

private lemma scipy_global (R : Rng G S) {w : RngWorld G S} (h : w.source = .global) (ops : List (RngOp G A)) :
    (rngRun R .scipy w ops).2.source = .global ∧
      ∀ w' : RngWorld G S, w'.source = .global → w'.global = w.global → rngRun R .scipy w' ops = rngRun R .scipy w ops := by
  have heq : ∀ w' : RngWorld G S, w'.source = .global → w'.global = w.global → w' = w := by
    rintro ⟨g', s'⟩ h1 h2
    obtain ⟨g, s⟩ := w
    simp only at h h1 h2
    rw [h, h1, h2]
  refine ⟨?_, fun w' h1 h2 => by rw [heq w' h1 h2]⟩
  clear heq
  induction ops generalizing w with
  | nil => exact h
  | cons o ops ih =>
    cases o with
    | reseed n => exact ih (by simpa [rngStep] using h)
    | unseeded f =>
      refine ih ?_
      simp only [rngStep, rvsCall, h]
    | seeded n f => exact ih (by simpa [rngStep, rvsCall] using h)

/-- The distributions whose `rvs` goes through scipy (see `RvsFamily.kind`) are reproducible by `np.random.seed(n)`: what follows it does not depend on what was done
before. -/
theorem C122_reseed (R : Rng G S) (n : ℕ) {w w' : RngWorld G S} (h : w.source = .global) (h' : w'.source = .global)
    (before before' after : List (RngOp G A)) :
    (rngRun R .scipy (rngRun R .scipy w before).2 (.reseed n :: after)).1 =
      (rngRun R .scipy (rngRun R .scipy w' before').2 (.reseed n :: after)).1 := by
  have h1 := (scipy_global R h before).1
  have h2 := (scipy_global R h' before').1
  have := (scipy_global R (w := { (rngRun R .scipy w before).2 with global := R.randomState n }) h1 after).2
    { (rngRun R .scipy w' before').2 with global := R.randomState n } h2 rfl
  simp only [rngRun, rngStep, this]

/-- The others (the uniform, triangular, cardioid, Cartwright, wrapped normal, wrapped Cauchy and von Mises
distributions) are so only as long as there was no unseeded call: from the first one on, `np.random.seed` is ignored. -/
theorem C122_reseed_ignored (R : Rng G S) (w : RngWorld G S) (f : G → A × G) (ops : List (RngOp G A)) :
    ((rngRun R .direct w (.unseeded f :: ops)).1.filterMap id =
      (rngRun R .direct w (.unseeded f :: ops.filter fun o => !isReseed o)).1.filterMap id) ∧
    ∀ n (w' : RngWorld G S), w.source = .global → w'.source = .global →
      (rngRun R .direct w (.reseed n :: ops)).1 = (rngRun R .direct w' (.reseed n :: ops)).1 := by
  have key : ∀ (ops : List (RngOp G A)) (w w' : RngWorld G S) (g : G), w.source = .gen g → w'.source = .gen g →
      (rngRun R .direct w ops).1.filterMap id =
        (rngRun R .direct w' (ops.filter fun o => !isReseed o)).1.filterMap id := by
    intro ops
    induction ops with
    | nil => intros; rfl
    | cons o ops ih =>
      intro w w' g h h'
      cases o with
      | reseed n =>
        simp only [isReseed, rngRun, rngStep, List.filterMap_cons, id]
        simpa [isReseed] using ih _ _ g (by simpa using h) h'
      | unseeded f =>
        have := ih { w with source := .gen (f g).2 } { w' with source := .gen (f g).2 } (f g).2 rfl rfl
        rw [List.filter_cons_of_pos (by rfl)]
        simp only [rngRun, rngStep, rvsCall, h, h', List.filterMap_cons, id]
        exact congrArg _ this
      | seeded n f =>
        have := ih w w' g h h'
        rw [List.filter_cons_of_pos (by rfl)]
        simp only [rngRun, rngStep, rvsCall, List.filterMap_cons, id]
        exact congrArg _ this
  refine ⟨?_, fun n w' h h' => ?_⟩
  · have hg : ∃ g, (rngStep R .direct w (.unseeded f)).2.source = .gen g := by
      obtain ⟨gl, src⟩ := w
      cases src <;> exact ⟨_, rfl⟩
    obtain ⟨g, hg⟩ := hg
    have := key ops _ _ g hg hg
    simp only [rngRun, List.filterMap_cons]
    rw [this]
  · simp only [rngRun, rngStep, h, h']

/-- The generator of the examples: states are numbers, drawing returns the state and adds one. -/
def countRng : Rng ℕ ℕ := ⟨id, id, fun s => (s, s + 1)⟩

/-- `np.random.seed(5)` before each of two unseeded calls: the Kato–Jones distribution returns the same value twice,
the von Mises distribution does not. -/
theorem C122_reseed_differs :
    (rngRun countRng RvsFamily.katojones.kind ⟨0, .global⟩
        [.reseed 5, .unseeded fun g => (g, g + 1), .reseed 5, .unseeded fun g => (g, g + 1)]).1 =
      [none, some 5, none, some 5] ∧
    (rngRun countRng RvsFamily.vonmises.kind ⟨0, .global⟩
        [.reseed 5, .unseeded fun g => (g, g + 1), .reseed 5, .unseeded fun g => (g, g + 1)]).1 =
      [none, some 5, none, some 6] := ⟨rfl, rfl⟩

/-- C122: a session with all kinds of calls. -/
example : rngRun countRng .direct ⟨7, .global⟩
      [.unseeded fun g => (g, g + 3), .seeded 40 fun g => (g, g + 1), .unseeded fun g => (g, g + 1),
        .seeded 40 fun g => (g, g + 1)] =
    ([some 7, some 40, some 10, some 40], ⟨8, .gen 11⟩) := rfl

/-! ## C123: arguments -/

variable {V : Type}

private lemma lookup_zip {names : List String} (hn : names.Nodup) (vals : List (Option V)) {i : ℕ} (hi : i < names.length) :
    (names.zip vals).lookup names[i] = vals[i]? := by
  induction names generalizing vals i with
  | nil => simp at hi
  | cons n names ih =>
    cases vals with
    | nil => simp
    | cons v vals =>
      cases i with
      | zero => simp
      | succ i =>
        have hne : names[i]'(by simpa using hi) ≠ n := by
          intro h
          exact (List.nodup_cons.1 hn).1 (h ▸ List.getElem_mem _)
        rw [List.zip_cons_cons, List.getElem_cons_succ, List.lookup_cons]
        simp only [beq_eq_false_iff_ne.2 hne, List.getElem?_cons_succ]
        exact ih (List.nodup_cons.1 hn).2 vals _

private lemma lookup_none_of_not_mem {l : List (String × Option V)} {n : String} (h : ∀ v, (n, v) ∉ l) : l.lookup n = none := by
  rw [List.lookup_eq_none_iff]
  intro p hp
  rw [bne_iff_ne]
  rintro rfl
  exact h p.2 hp

private lemma lookup_isSome {l : List (String × Option V)} {p : String × Option V} (h : p ∈ l) : (l.lookup p.1).isSome := by
  rw [Option.isSome_iff_ne_none]
  intro hn
  have := List.lookup_eq_none_iff.1 hn p h
  simp at this

private lemma lookup_filter (l : List (String × Option V)) (q : String → Bool) (n : String) :
    (l.filter fun k => q k.1).lookup n = if q n then l.lookup n else none := by
  induction l with
  | nil => simp
  | cons p l ih =>
    by_cases hq : q p.1
    · rw [List.filter_cons_of_pos (by simpa using hq), List.lookup_cons, List.lookup_cons, ih]
      by_cases hp : n == p.1
      · have : n = p.1 := by simpa using hp
        simp [this, hq]
      · simp [hp]
    · rw [List.filter_cons_of_neg (by simpa using hq), ih, List.lookup_cons]
      by_cases hp : n == p.1
      · have : n = p.1 := by simpa using hp
        simp [this, hq]
      · simp [hp]

/-- Specification: the dictionary `kwds` gives the parameters `names` the values `vals`, and has no other entries. -/
def Names (kwds : List (String × Option V)) (names : List String) (vals : List V) : Prop :=
  (∀ k ∈ kwds, k.1 ∈ names) ∧ ∀ i (_ : i < names.length), kwds.lookup names[i] = vals[i]?.map some

/-- Freezing a distribution with all its parameters, the first ones by position and the others by name in any order,
and drawing from it hands exactly these parameters, the size and the random state to the sampler; for the von Mises
distribution only if all parameters are given by name. -/
theorem C123_frozen {f : RvsFamily} {pos vals : List V} {kwds : List (String × Option V)}
    (hf : f = .vonmises → pos = []) (hlen : pos.length + vals.length = f.shapes.length)
    (hk : Names kwds (f.shapes.drop pos.length) vals) (size rs : Option V) :
    frozenRvs f (pos.map some) kwds size rs = .ok ((pos ++ vals).map some, size, rs) := by
  have hnd : (f.shapes ++ ["size", "random_state"]).Nodup := by cases f <;> decide
  have hnd' := (List.nodup_append.1 hnd)
  have hsz : "size" ∉ f.shapes := fun h => hnd'.2.2 _ h _ (by simp) rfl
  have hrs : "random_state" ∉ f.shapes := fun h => hnd'.2.2 _ h _ (by simp) rfl
  have hkmem : ∀ k ∈ kwds, k.1 ∈ f.shapes := fun k hk' => List.mem_of_mem_drop (hk.1 k hk')
  have hksz : kwds.lookup "size" = none := lookup_none_of_not_mem fun v h => hsz (hkmem _ h)
  have hkrs : kwds.lookup "random_state" = none := lookup_none_of_not_mem fun v h => hrs (hkmem _ h)
  -- the value of each parameter in the dictionary of all arguments
  have hval : ∀ i (h : i < f.shapes.length), pos.length ≤ i →
      (kwds ++ [("size", size), ("random_state", rs)]).lookup f.shapes[i] = some (some ((pos ++ vals)[i]'(by
        rw [List.length_append]; omega))) := by
    intro i h hp
    have := hk.2 (i - pos.length) (by rw [List.length_drop]; omega)
    rw [List.getElem_drop] at this
    have e : pos.length + (i - pos.length) = i := by omega
    simp only [e] at this
    rw [List.lookup_append, this, List.getElem?_eq_getElem (by omega), List.getElem_append_right hp]
    rfl
  by_cases hvm : f = .vonmises
  · subst hvm
    have hp := hf rfl
    subst hp
    have hv2 : vals.length = 2 := by simpa [RvsFamily.shapes] using hlen
    obtain ⟨m, q, rfl⟩ : ∃ m q, vals = [m, q] := by
      match vals, hv2 with
      | [m, q], _ => exact ⟨m, q, rfl⟩
    have h0 := hval 0 (by simp [RvsFamily.shapes]) (by simp)
    have h1 := hval 1 (by simp [RvsFamily.shapes]) (by simp)
    simp only [RvsFamily.shapes, List.getElem_cons_zero, List.getElem_cons_succ, List.nil_append] at h0 h1
    have hb : bindArgs ["size", "random_state"] true ([] : List (Option V))
        (kwds ++ [("size", size), ("random_state", rs)]) = .ok
          ((kwds ++ [("size", size), ("random_state", rs)]).filter (fun k => ["size", "random_state"].contains k.1),
            (kwds ++ [("size", size), ("random_state", rs)]).filter fun k => !(["size", "random_state"].contains k.1)) := by
      simp [bindArgs]
    simp only [frozenRvs, rvsBind, List.map_nil]
    rw [hb]
    simp only [Except.bind, List.map_cons, List.map_nil]
    rw [lookup_filter _ (fun n => !(["size", "random_state"].contains n)),
      lookup_filter _ (fun n => !(["size", "random_state"].contains n)),
      lookup_filter _ (fun n => ["size", "random_state"].contains n),
      lookup_filter _ (fun n => ["size", "random_state"].contains n), h0, h1, List.lookup_append, List.lookup_append,
      hksz, hkrs]
    rfl
  · have hcase : rvsBind f (pos.map some) (kwds ++ [("size", size), ("random_state", rs)]) =
        ((bindArgs (f.shapes ++ ["size", "random_state"]) false (pos.map some)
          (kwds ++ [("size", size), ("random_state", rs)])).bind fun b =>
        if f.required && f.shapes.any fun n => (b.1.lookup n).isNone then .error .typeError
        else match f.kind with
          | .direct => if (f.shapes.map fun n => (b.1.lookup n).join).any Option.isNone then .error .valueError
            else .ok (f.shapes.map fun n => (b.1.lookup n).join, (b.1.lookup "size").join, (b.1.lookup "random_state").join)
          | .scipy => .ok (f.shapes.map fun n => (b.1.lookup n).join, (b.1.lookup "size").join,
              (b.1.lookup "random_state").join)) := by
      cases f <;> first | exact absurd rfl hvm | rfl
    obtain ⟨params, hparams⟩ : ∃ params, f.shapes ++ ["size", "random_state"] = params := ⟨_, rfl⟩
    obtain ⟨kw, hkw⟩ : ∃ kw, kwds ++ [("size", size), ("random_state", rs)] = kw := ⟨_, rfl⟩
    have hple : pos.length ≤ f.shapes.length := by omega
    have hdrop : ∀ k ∈ kw, k.1 ∈ params.drop pos.length := by
      intro k hk'
      rw [← hparams, List.drop_append_of_le_length hple]
      rw [← hkw] at hk'
      rcases List.mem_append.1 hk' with h | h
      · exact List.mem_append_left _ (hk.1 k h)
      · refine List.mem_append_right _ ?_
        simp only [List.mem_cons, List.not_mem_nil, or_false] at h
        rcases h with rfl | rfl <;> simp
    have hcont : ∀ k ∈ kw, params.contains k.1 = true := fun k hk' => by
      simpa using List.mem_of_mem_drop (hdrop k hk')
    have hb : bindArgs params false (pos.map some) kw = .ok (params.zip (pos.map some) ++ kw, []) := by
      have hplen : ¬ params.length < pos.length := by
        rw [← hparams, List.length_append]; omega
      have h2 : (kw.any fun k => (params.zip (pos.map some)).any fun b => b.1 == k.1) = false := by
        rw [List.any_eq_false]
        intro k hk' h
        rw [List.any_eq_true] at h
        obtain ⟨b, hb, hbk⟩ := h
        have e : b.1 = k.1 := by simpa using hbk
        have h1 : b.1 ∈ params.take pos.length := by
          obtain ⟨i, hi, rfl⟩ := List.getElem_of_mem hb
          simp only [List.length_zip, List.length_map, lt_min_iff] at hi
          rw [List.getElem_zip]
          exact List.mem_take_iff_getElem.2 ⟨i, by omega, rfl⟩
        have hd := List.disjoint_take_drop (hparams ▸ hnd) (le_refl pos.length)
        exact hd h1 (e ▸ hdrop k hk')
      have h3 : (kw.any fun k => !params.contains k.1) = false := by
        rw [List.any_eq_false]
        intro k hk'
        rw [hcont k hk']
        decide
      have h4 : (kw.filter fun k => params.contains k.1) = kw := List.filter_eq_self.2 hcont
      have h5 : (kw.filter fun k => !params.contains k.1) = [] := by
        rw [List.filter_eq_nil_iff]
        intro k hk'
        rw [hcont k hk']
        decide
      unfold bindArgs
      simp only [h2, h3, h4, h5, List.length_map]
      simp [hplen]
    have hlook : ∀ i (h : i < f.shapes.length), (params.zip (pos.map some) ++ kw).lookup f.shapes[i] =
        some (some ((pos ++ vals)[i]'(by rw [List.length_append]; omega))) := by
      intro i h
      have hi : i < params.length := by rw [← hparams, List.length_append]; omega
      have e : params[i] = f.shapes[i] := by simp [← hparams, h]
      rw [List.lookup_append, ← e, lookup_zip (hparams ▸ hnd) _ hi, e]
      by_cases hp : i < pos.length
      · rw [List.getElem?_eq_getElem (by simpa using hp), List.getElem_append_left hp]
        simp
      · rw [List.getElem?_eq_none (by simpa using hp), ← hkw, hval i h (by omega)]
        rfl
    have hother : ∀ j (hj : j < 2) (x : Option V), kw.lookup (["size", "random_state"][j]) = some x →
        (params.zip (pos.map some) ++ kw).lookup (["size", "random_state"][j]) = some x := by
      intro j hj x hx
      have hi : f.shapes.length + j < params.length := by rw [← hparams, List.length_append]; simpa using hj
      have e : params[f.shapes.length + j] = ["size", "random_state"][j] := by simp [← hparams]
      rw [List.lookup_append, hx, ← e, lookup_zip (hparams ▸ hnd) _ hi, List.getElem?_eq_none (by simp; omega)]
      rfl
    have hsize := hother 0 (by simp) size (by rw [← hkw, List.lookup_append]; simp [hksz])
    have hrstate := hother 1 (by simp) rs (by
      rw [← hkw, List.lookup_append]; simp only [List.getElem_cons_succ, List.getElem_cons_zero, hkrs]; rfl)
    simp only [List.getElem_cons_succ, List.getElem_cons_zero] at hsize hrstate
    have hshapes : (f.shapes.map fun n => ((params.zip (pos.map some) ++ kw).lookup n).join) = (pos ++ vals).map some := by
      apply List.ext_getElem
      · simp; omega
      · intro i h1 h2
        rw [List.getElem_map, List.getElem_map, hlook i (by simpa using h1)]
        rfl
    have hreq : (f.shapes.any fun n => ((params.zip (pos.map some) ++ kw).lookup n).isNone) = false := by
      rw [List.any_eq_false]
      intro n hn
      obtain ⟨i, hi, rfl⟩ := List.getElem_of_mem hn
      rw [hlook i hi]
      simp
    rw [frozenRvs, hcase, hparams, hkw, hb]
    simp only [Except.bind, hshapes, hreq, hsize, hrstate, Option.join_some]
    have hnone : ((pos ++ vals).map some).any Option.isNone = false := by
      rw [List.any_eq_false]
      intro o ho
      obtain ⟨x, -, rfl⟩ := List.mem_map.1 ho
      simp
    rw [hnone]
    cases f.kind <;> simp

/-- The von Mises distribution frozen with parameters by position, `vonmises(mu, kappa)`, raises `TypeError` on
`rvs`, whatever the size and the random state. Without freezing, `vonmises.rvs(mu, kappa, size=n)` raises `TypeError`
and `vonmises.rvs(mu, kappa)` raises `ValueError`: the two numbers are taken for the size and the random state. -/
theorem C123_vonmises_fails (mu kappa : Option V) :
    (∀ (pos : List (Option V)) (kwds : List (String × Option V)) (size rs : Option V), pos ≠ [] →
      frozenRvs .vonmises pos kwds size rs = .error .typeError) ∧
    (∀ size : Option V, rvsBind .vonmises [mu, kappa] [("size", size)] = .error .typeError) ∧
    rvsBind .vonmises [mu, kappa] [] = .error .valueError := by
  refine ⟨fun pos kwds size rs hne => ?_, fun size => rfl, rfl⟩
  obtain ⟨x, pos, rfl⟩ := List.exists_cons_of_ne_nil hne
  have h2 : ((kwds ++ [("size", size), ("random_state", rs)]).any fun k =>
      (["size", "random_state"].zip (x :: pos)).any fun b => b.1 == k.1) = true := by
    rw [List.any_eq_true]
    exact ⟨("size", size), by simp, by rw [List.any_eq_true]; exact ⟨("size", x), by simp, by simp⟩⟩
  have hb : bindArgs ["size", "random_state"] true (x :: pos) (kwds ++ [("size", size), ("random_state", rs)]) =
      .error .typeError := by
    unfold bindArgs
    simp only [h2]
    simp
  simp only [frozenRvs, rvsBind, hb, Except.bind]

/-- An argument too many, or a name that is not a parameter, raises `TypeError` on `rvs` of every frozen distribution except von
Mises, which ignores names that it does not know. -/
theorem C123_refused (f : RvsFamily) (hf : f ≠ .vonmises) (pos : List (Option V)) (kwds : List (String × Option V))
    (size rs : Option V)
    (h : f.shapes.length < pos.length ∨ ∃ k ∈ kwds, k.1 ∉ f.shapes ∧ k.1 ≠ "size" ∧ k.1 ≠ "random_state") :
    frozenRvs f pos kwds size rs = .error .typeError := by
  have hcase : bindArgs (f.shapes ++ ["size", "random_state"]) false pos (kwds ++ [("size", size), ("random_state", rs)]) =
      .error .typeError → frozenRvs f pos kwds size rs = .error .typeError := by
    intro hb
    unfold frozenRvs rvsBind
    cases f <;> first | exact absurd rfl hf | (simp only [hb, Except.bind])
  apply hcase
  unfold bindArgs
  simp only
  split_ifs with h1 h2 h3
  · rfl
  · rfl
  · rfl
  · exfalso
    rcases h with h | ⟨k, hk, hk1, hk2, hk3⟩
    · apply h2
      rw [List.any_eq_true]
      refine ⟨("size", size), by simp, ?_⟩
      rw [List.any_eq_true]
      refine ⟨("size", pos[f.shapes.length]), ?_, by simp⟩
      rw [List.mem_iff_getElem]
      refine ⟨f.shapes.length, by simp; omega, by simp⟩
    · apply h3
      simp only [Bool.not_false, Bool.true_and]
      rw [List.any_eq_true]
      exact ⟨k, by simp [hk], by simp [hk1, hk2, hk3]⟩

/-- C123: the Kato–Jones distribution with two parameters by position and two by name, in another order. -/
example (size rs : Option ℕ) : frozenRvs .katojones [some 1, some 2] [("lam", some 4), ("rho", some 3)] size rs =
    .ok ([some 1, some 2, some 3, some 4], size, rs) :=
  C123_frozen (V := ℕ) (f := .katojones) (pos := [1, 2]) (vals := [3, 4]) (by simp) rfl
    ⟨by decide, by decide⟩ size rs

/-- C123: `vonmises(mu=1, kappa=2)` works, `vonmises(1, 2)` and `wrapnorm(1, 2, 3)` do not. -/
example (size rs : Option ℕ) : frozenRvs .vonmises [] [("kappa", some 2), ("mu", some 1)] size rs =
      .ok ([some 1, some 2], size, rs) ∧
    frozenRvs .vonmises [some 1, some 2] [] size rs = .error .typeError ∧
    frozenRvs .wrapnorm [some 1, some 2, some 3] [] size rs = .error .typeError :=
  ⟨C123_frozen (V := ℕ) (f := .vonmises) (pos := []) (vals := [1, 2]) (by simp) rfl ⟨by decide, by decide⟩ size rs,
    (C123_vonmises_fails none none).1 _ _ _ _ (by simp), C123_refused _ (by decide) _ _ _ _ (Or.inl (by decide))⟩

/-- The parameters in the order of the documentation: a call by position is the call with these names, and the sampler gets the
values in this order. -/
theorem C123_order (a b c d : V) :
    (∀ f ∈ [RvsFamily.cardioid, .wrapnorm, .wrapcauchy], rvsBind f [some a, some b] [] = .ok ([some a, some b], none, none) ∧
      rvsBind f [] [("mu", some a), ("rho", some b)] = .ok ([some a, some b], none, none)) ∧
    (rvsBind .cartwright [some a, some b] [] = .ok ([some a, some b], none, none) ∧
      rvsBind .cartwright [] [("mu", some a), ("zeta", some b)] = .ok ([some a, some b], none, none)) ∧
    rvsBind .vonmises [] [("mu", some a), ("kappa", some b)] = .ok ([some a, some b], none, none) ∧
    (∀ f n, (f, n) ∈ [(RvsFamily.vonmisesFlattopped, "nu"), (.jonespewsey, "psi")] →
      rvsBind f [some a, some b, some c] [] = .ok ([some a, some b, some c], none, none) ∧
      rvsBind f [] [("mu", some a), ("kappa", some b), (n, some c)] = .ok ([some a, some b, some c], none, none)) ∧
    ∀ f n1 n2 n3 n4, (f, n1, n2, n3, n4) ∈ [(RvsFamily.jonespewseySineskewed, "xi", "kappa", "psi", "lmbd"),
        (.jonespewseyAsym, "xi", "kappa", "psi", "nu"), (.inverseBatschelet, "xi", "kappa", "nu", "lmbd"),
        (.wrapstable, "delta", "alpha", "beta", "gamma"), (.katojones, "mu", "gamma", "rho", "lam")] →
      rvsBind f [some a, some b, some c, some d] [] = .ok ([some a, some b, some c, some d], none, none) ∧
      rvsBind f [] [(n1, some a), (n2, some b), (n3, some c), (n4, some d)] = .ok ([some a, some b, some c, some d], none, none) := by
  refine ⟨?_, ⟨rfl, rfl⟩, rfl, ?_, ?_⟩
  · intro f hf
    simp only [List.mem_cons, List.not_mem_nil, or_false] at hf
    rcases hf with rfl | rfl | rfl <;> exact ⟨rfl, rfl⟩
  · intro f n hf
    simp only [List.mem_cons, List.not_mem_nil, or_false, Prod.mk.injEq] at hf
    rcases hf with ⟨rfl, rfl⟩ | ⟨rfl, rfl⟩ <;> exact ⟨rfl, rfl⟩
  · intro f n1 n2 n3 n4 hf
    simp only [List.mem_cons, List.not_mem_nil, or_false, Prod.mk.injEq] at hf
    rcases hf with ⟨rfl, rfl, rfl, rfl, rfl⟩ | ⟨rfl, rfl, rfl, rfl, rfl⟩ | ⟨rfl, rfl, rfl, rfl, rfl⟩ | ⟨rfl, rfl, rfl, rfl, rfl⟩ |
      ⟨rfl, rfl, rfl, rfl, rfl⟩ <;> exact ⟨rfl, rfl⟩

end Verif.Props
