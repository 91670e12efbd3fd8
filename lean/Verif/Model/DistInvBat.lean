import Verif.Model.DistFlat

/-! # Model of the inverse Batschelet distribution: `pycircstat2/distributions.py` lines 6476-7472

Parameters are scalars (`_invbat_ensure_scalar`, 7446-7458). The distribution object keeps two caches between
calls: the normalising constants, with the key `(kappa, lmbd)` (383-391), and the tables, with the key
`(kappa, nu, lmbd, grid_size)` (7236-7243). They are the state `InvBatState`, which every method takes and
returns. `solve f` stands for `root_scalar(f, bracket=(-π, π), method="brentq")`; it is `none` when the search
has not converged. The sampler (6853-6969) and `fit` (7009-7214), in `DistInvBatFit.lean`,
reach the caches through `_get_invbat_table` only. -/

set_option autoImplicit false

namespace Verif

open Real

/-- The shape parameters `(xi, kappa, nu, lmbd)`. -/
structure InvBat where
  xi : ℝ
  kappa : ℝ
  nu : ℝ
  lmbd : ℝ

/-- The caches of the distribution object. In `norms` the inner `none` is a stored `nan`. -/
structure InvBatState where
  norms : ℝ → ℝ → Option (Option ℝ)
  tables : ℝ → ℝ → ℝ → ℕ → Option (ℕ → ℝ)

/-- A fresh object: distributions.py 163, 6518-6521; the same after `_clear_normalization_cache` (6523-6526). -/
def InvBatState.empty : InvBatState := ⟨fun _ _ => none, fun _ _ _ _ => none⟩

/-- `_INVBAT_KAPPA_TOL`, `_INVBAT_KAPPA_UPPER`: distributions.py 61-62. -/
noncomputable def invbatTol : ℝ := 1 / 10 ^ 9
noncomputable def invbatUpper : ℝ := 700

/-! ## The two inverse warps -/

/-- `_tnu(x, nu, xi)`: distributions.py 7322-7349. -/
noncomputable def invbatTnu (solve : (ℝ → ℝ) → Option ℝ) (x nu xi : ℝ) : ℝ :=
  let phi := tabRel x xi
  if |nu| ≤ 1 / 10 ^ 12 then phi
  else pymod ((solve fun y => y - nu * (1 + cos y) - phi).getD phi + π) (2 * π) - π

/-- `_slmbdinv(x, lmbd)`: distributions.py 7352-7378. -/
noncomputable def invbatSinv (solve : (ℝ → ℝ) → Option ℝ) (x lmbd : ℝ) : ℝ :=
  if isclose lmbd (-1) rtolDefault (1 / 10 ^ 12) then x
  else pymod ((solve fun u => u - 1 / 2 * (1 + lmbd) * sin u - x).getD x + π) (2 * π) - π

/-- The logarithm of the kernel: distributions.py 6581-6589 (`atol` is the default `1e-8` there) and 7247-7255
(with `atol = 1e-12` and `xi = 0`). -/
noncomputable def invbatLogKernel (solve : (ℝ → ℝ) → Option ℝ) (atol kappa nu lmbd x xi : ℝ) : ℝ :=
  let phi := invbatTnu solve x nu xi
  let skew := invbatSinv solve phi lmbd
  if isclose lmbd (-1) rtolDefault atol then kappa * cos (phi - sin phi)
  else kappa * cos ((1 - lmbd) / (1 + lmbd) * phi + 2 * lmbd / (1 + lmbd) * skew)

/-! ## The normalising constant -/

/-- `_log_invbatschelet_kernel_integral(kappa, lmbd, N)`: distributions.py 7406-7413. -/
noncomputable def invbatLogInt (kappa lmbd : ℝ) (N : ℕ) : ℝ :=
  let k := fun j => kappa * cos (tabGrid N j - 1 / 2 * (1 - lmbd) * sin (tabGrid N j))
  let logMax := (Finset.range (N + 1)).sup' ⟨0, by simp⟩ k
  log (2 * π / N) + logMax + log (∑ j ∈ Finset.range (N + 1), vmftWeight N j * exp (k j - logMax))

/-- `log_mult`: distributions.py 7398, 7417 (`i0e(k)` is `exp(-k) I₀(k)`). -/
noncomputable def invbatLogMult (kappa : ℝ) : ℝ := log (2 * π) + log (exp (-kappa) * besselI 0 kappa) + kappa

/-- `_c_invbatschelet_numeric(kappa, lmbd, grid_size=N)`: distributions.py 7416-7443; `none` stands for `nan`. -/
noncomputable def invbatCNumeric (kappa lmbd : ℝ) (N : ℕ) : Option ℝ :=
  if isclose lmbd (-1) rtolDefault (1 / 10 ^ 12) then some (exp (-invbatLogInt kappa lmbd N))
  else
    let t1 := log (1 + lmbd) + invbatLogMult kappa
    let t2 : Option ℝ := if |lmbd| ≤ 1 / 10 ^ 12 then none else some (log (2 * |lmbd|) + invbatLogInt kappa lmbd N)
    let maxLog := match t2 with | none => t1 | some t => max t1 t
    let term1 := exp (t1 - maxLog)
    let term2 := match t2 with | none => 0 | some t => exp (t - maxLog)
    let denom := if 0 ≤ lmbd then term1 - term2 else term1 + term2
    if denom ≤ 0 then none else some (exp (log (1 - lmbd) - (maxLog + log denom)))

/-- `_c_invbatschelet(kappa, lmbd)`: distributions.py 7385-7403. -/
noncomputable def invbatC (kappa lmbd : ℝ) : Option ℝ :=
  let k := clip kappa 0 invbatUpper
  if k ≤ invbatTol then some (1 / (2 * π))
  else if isclose lmbd 1 rtolDefault (1 / 10 ^ 12) then
    let K := 1 - besselI 1 k / besselI 0 k
    if K ≤ 0 then invbatCNumeric k lmbd 8192 else some (exp (-invbatLogMult k - log K))
  else
    match invbatCNumeric k lmbd 4096 with
    | none => invbatCNumeric k lmbd 8192
    | some c => if c ≤ 0 then invbatCNumeric k lmbd 8192 else some c

/-- `_get_normalization_cache()[(kappa, lmbd)] = c`: distributions.py 168-173. -/
noncomputable def InvBatState.store (st : InvBatState) (kappa lmbd : ℝ) (c : Option ℝ) : InvBatState :=
  { st with norms := fun k l => if k = kappa ∧ l = lmbd then some c else st.norms k l }

/-- `_get_cached_normalizer(compute, kappa, lmbd)`: distributions.py 383-391. -/
noncomputable def invbatCached (st : InvBatState) (kappa lmbd : ℝ) : Option ℝ × InvBatState :=
  match st.norms kappa lmbd with
  | some c => (c, st)
  | none => (invbatC kappa lmbd, st.store kappa lmbd (invbatC kappa lmbd))

/-! ## Density -/

/-- `_pdf(x, xi, kappa, nu, lmbd)`: distributions.py 6547-6596. -/
noncomputable def invbatPdf (solve : (ℝ → ℝ) → Option ℝ) (st : InvBatState) (x : ℝ) (s : InvBat) : Option ℝ × InvBatState :=
  let kappa := clip s.kappa 0 invbatUpper
  if kappa ≤ invbatTol then (some (1 / (2 * π)), st)
  else
    let r := invbatCached st kappa s.lmbd
    let c := match r.1 with
      | none => invbatCNumeric kappa s.lmbd 4096
      | some v => if v ≤ 0 then invbatCNumeric kappa s.lmbd 4096 else some v
    (c.map fun v => max (v * exp (invbatLogKernel solve atolDefault kappa s.nu s.lmbd x s.xi)) 0, r.2)

/-! ## Tables -/

/-- `_invbat_grid_size(kappa, nu, lmbd)`: distributions.py 7461-7470. -/
noncomputable def invbatGridSize (kappa nu lmbd : ℝ) : ℕ := tabSize ((1 + 3 / 4 * |lmbd|) * (1 + |nu|) * √(kappa + 1))

/-- The density values before rescaling, for the constant `c`: distributions.py 7247-7255, 7267-7270. -/
noncomputable def invbatRaw (solve : (ℝ → ℝ) → Option ℝ) (kappa nu lmbd : ℝ) (N : ℕ) (c : ℝ) (j : ℕ) : ℝ :=
  exp (clip (log c + invbatLogKernel solve (1 / 10 ^ 12) kappa nu lmbd (tabGrid N j) 0) (-745) 700)

open Classical in
/-- `_build_invbat_table(kappa, nu, lmbd, N)`: distributions.py 7245-7311. The table is given by its density values. -/
noncomputable def invbatBuild (solve : (ℝ → ℝ) → Option ℝ) (st : InvBatState) (kappa nu lmbd : ℝ) (N : ℕ) :
    (ℕ → ℝ) × InvBatState :=
  let r := invbatCached st kappa lmbd
  let fallback := invbatCNumeric kappa lmbd 4096
  let r' := match r.1 with
    | none => (fallback, r.2.store kappa lmbd fallback)
    | some v => if v ≤ 0 then (fallback, r.2.store kappa lmbd fallback) else r
  match r'.1 with
  | none => (fun _ => 1 / (2 * π), r'.2)
  | some c =>
    let f := invbatRaw solve kappa nu lmbd N c
    let mass := tabTrap N f N
    if mass ≤ 0 then (fun _ => 1 / (2 * π), r'.2)
    else if 5 / 10 ^ 10 < |mass - 1| then (fun j => f j * (1 / mass), r'.2.store kappa lmbd (some (exp (log c + log (1 / mass)))))
    else (f, r'.2)

/-- `_get_invbat_table(kappa, nu, lmbd)` for `kappa` above the tolerance: distributions.py 7216-7243. -/
noncomputable def invbatTable (solve : (ℝ → ℝ) → Option ℝ) (st : InvBatState) (kappa nu lmbd : ℝ) : (ℕ → ℝ) × InvBatState :=
  let N := invbatGridSize kappa nu lmbd
  match st.tables kappa nu lmbd N with
  | some f => (f, st)
  | none =>
    let r := invbatBuild solve st kappa nu lmbd N
    (r.1, { r.2 with tables := fun k n l M => if k = kappa ∧ n = nu ∧ l = lmbd ∧ M = N then some r.1 else r.2.tables k n l M })

open Classical in
/-- `_cdf(x, xi, kappa, nu, lmbd)`: distributions.py 6644-6689. -/
noncomputable def invbatCdf (solve : (ℝ → ℝ) → Option ℝ) (st : InvBatState) (x : ℝ) (s : InvBat) : ℝ × InvBatState :=
  let w := wrap2pi x
  let kappa := clip s.kappa 0 invbatUpper
  if kappa ≤ invbatTol then (if isclose w (2 * π) 0 (1 / 10 ^ 12) then 1 else w / (2 * π), st)
  else
    let r := invbatTable solve st kappa s.nu s.lmbd
    (tabCdf (invbatGridSize kappa s.nu s.lmbd) r.1 s.xi w, r.2)

open Classical in
/-- `_ppf(q, xi, kappa, nu, lmbd)` for one probability of `[0, 1]`: distributions.py 6728-6817. `guess` is the
starting value read from the interpolated inverse table. -/
noncomputable def invbatPpf (solve : (ℝ → ℝ) → Option ℝ) (guess : ℝ → ℝ) (st : InvBatState) (q : ℝ) (s : InvBat) :
    ℝ × InvBatState :=
  let kappa := clip s.kappa 0 invbatUpper
  if kappa ≤ invbatTol then
    (if isclose q 1 0 (1 / 10 ^ 12) then 2 * π else if isclose q 0 0 (1 / 10 ^ 12) then 0
      else pymod (2 * π * q) (2 * π), st)
  else
    let r := invbatTable solve st kappa s.nu s.lmbd
    let N := invbatGridSize kappa s.nu s.lmbd
    (tabPpf N r.1 (pchip N (tabGrid N) r.1) guess 60 s.xi q, r.2)

/-! ## The methods seen by the user -/

/-- `_argcheck(xi, kappa, nu, lmbd)`: distributions.py 6528-6545. -/
def invbatArgcheck (s : InvBat) : Prop :=
  0 ≤ s.xi ∧ s.xi ≤ 2 * π ∧ 0 ≤ s.kappa ∧ -1 ≤ s.nu ∧ s.nu ≤ 1 ∧ -1 ≤ s.lmbd ∧ s.lmbd ≤ 1

open Classical in
/-- `pdf(x, xi, kappa, nu, lmbd)`: distributions.py 6598-6641, through scipy as in `distPdf`. -/
noncomputable def invbatPdfMethod (solve : (ℝ → ℝ) → Option ℝ) (st : InvBatState) (x : ℝ) (s : InvBat) :
    Option ℝ × InvBatState :=
  if ¬ invbatArgcheck s then (none, st)
  else if 0 ≤ wrap2pi x ∧ wrap2pi x ≤ 2 * π then invbatPdf solve st (wrap2pi x) s
  else (some 0, st)

open Classical in
/-- `super().cdf`: scipy around `_cdf`, as in `distCdf`. -/
noncomputable def invbatCdfScipy (solve : (ℝ → ℝ) → Option ℝ) (st : InvBatState) (x : ℝ) (s : InvBat) :
    Option ℝ × InvBatState :=
  if ¬ invbatArgcheck s then (none, st)
  else if 2 * π ≤ wrap2pi x then (some 1, st)
  else if 0 < wrap2pi x then
    let r := invbatCdf solve st (wrap2pi x) s
    (some r.1, r.2)
  else (some 0, st)

/-- `cdf(x, xi, kappa, nu, lmbd)`: distributions.py 6691-6726; the concentration is clipped first. -/
noncomputable def invbatCdfMethod (solve : (ℝ → ℝ) → Option ℝ) (st : InvBatState) (x : ℝ) (s : InvBat) :
    Option ℝ × InvBatState :=
  invbatCdfScipy solve st x { s with kappa := clip s.kappa 0 invbatUpper }

open Classical in
/-- `super().ppf`: scipy around `_ppf`, as in `distPpf`. -/
noncomputable def invbatPpfScipy (solve : (ℝ → ℝ) → Option ℝ) (guess : ℝ → ℝ) (st : InvBatState) (q : ℝ) (s : InvBat) :
    Option ℝ × InvBatState :=
  if ¬ invbatArgcheck s then (none, st)
  else if q = 0 then (some 0, st)
  else if q = 1 then (some (2 * π), st)
  else if 0 < q ∧ q < 1 then
    let r := invbatPpf solve guess st q s
    (some r.1, r.2)
  else (none, st)

/-- `ppf(q, xi, kappa, nu, lmbd)`: distributions.py 6819-6851; the concentration is clipped first. -/
noncomputable def invbatPpfMethod (solve : (ℝ → ℝ) → Option ℝ) (guess : ℝ → ℝ) (st : InvBatState) (q : ℝ) (s : InvBat) :
    Option ℝ × InvBatState :=
  invbatPpfScipy solve guess st q { s with kappa := clip s.kappa 0 invbatUpper }

/-- A call of one of the methods on the same distribution object; `table` is what `rvs` and `fit` do with the caches
(6935-6936, 7141). -/
inductive InvBatCall where
  | pdf (x : ℝ) (s : InvBat)
  | cdf (x : ℝ) (s : InvBat)
  | ppf (q : ℝ) (s : InvBat)
  | table (kappa nu lmbd : ℝ)
  | clear

open Classical in
/-- The state after a call. -/
noncomputable def InvBatCall.run (solve : (ℝ → ℝ) → Option ℝ) (guess : ℝ → ℝ) (st : InvBatState) : InvBatCall → InvBatState
  | pdf x s => (invbatPdfMethod solve st x s).2
  | cdf x s => (invbatCdfMethod solve st x s).2
  | ppf q s => (invbatPpfMethod solve guess st q s).2
  | table kappa nu lmbd =>
    let k := clip kappa 0 invbatUpper
    if k ≤ invbatTol then st else (invbatTable solve st k nu lmbd).2
  | clear => .empty

/-- The state after a list of calls on a fresh object. -/
noncomputable def invbatHistory (solve : (ℝ → ℝ) → Option ℝ) (guess : ℝ → ℝ) (calls : List InvBatCall) : InvBatState :=
  calls.foldl (fun st c => c.run solve guess st) .empty

end Verif
