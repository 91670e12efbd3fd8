import Verif.Model.BaseReport
import Verif.Props.BaseB
import Verif.Props.BaseC
import Verif.Props.Utils

/-! # C130: the report of a `Circular` object, and C131: the dictionary of options of its interval -/

set_option autoImplicit false

namespace Verif.Props

open Verif Verif.Spec Real

/-! ## C130: the report -/

/-- Averages of the candidates of the median are single numbers. -/
private lemma median_single {alpha w : List ℝ} {method am : String} {init : List (Option ℝ)} {med : Option (List ℝ)}
    (h : circMedian alpha w method true am init = .ok med) : med = none ∨ ∃ m, med = some [m] := by
  unfold circMedian at h
  split_ifs at h
  · split at h
    · simp at h
    · right; exact ⟨_, by simpa using h.symm⟩
  · obtain ⟨l, -, h⟩ := except_bind_ok h
    obtain ⟨q, hq, h⟩ := except_map_ok h
    subst h
    unfold averageMedian at hq
    rw [if_pos rfl] at hq
    split_ifs at hq
    · cases hq
      cases l with
      | none => left; rfl
      | some l =>
        cases h : circMean l (ones l) with
        | none => left; simp [h]
        | some m => right; exact ⟨_, by simp [h]; rfl⟩
    · cases hq
      cases l with
      | none => left; rfl
      | some l =>
        cases h : circMean (npUnique l) (ones (npUnique l)) with
        | none => left; simp [h]
        | some m => right; exact ⟨_, by simp [h]; rfl⟩

/-- **C130.** Every object whose medians are averaged (the default), and every object of plain observations, has a
report. An object has none, `str(c)` and `c.summary()` raise `TypeError`, exactly if its median is an array, not a
number: then it is grouped and was made with `return_average=False`. -/
theorem C130_exists (data : List ℝ) (w edges : Option (List ℝ)) (unit : String) (fc rot : Option ℝ)
    (kw : Option (Option String)) (opts : MedianOpts) (e : Env) (c : CircularObj)
    (h : circular data w edges unit fc rot kw opts e = .ok c) :
    (opts.returnAverage = true ∨ c.grouped = false → ∃ rep, circularReport unit opts c = .ok rep) ∧
    (circularReport unit opts c = .error .typeError ↔ ∃ l, c.median = some l ∧ l.length ≠ 1) ∧
    ((∀ rep, circularReport unit opts c ≠ .ok rep) → circularReport unit opts c = .error .typeError ∧
      opts.returnAverage = false ∧ c.grouped = true) := by
  have h2 : circularReport unit opts c = .error .typeError ↔ ∃ l, c.median = some l ∧ l.length ≠ 1 := by
    unfold circularReport
    simp only
    split
    · next h => simp [h]
    · next h => simp [h]
    · next l hl h =>
        simp only [true_iff]
        refine ⟨l, h, fun h1 => ?_⟩
        obtain ⟨m, rfl⟩ := List.length_eq_one_iff.1 h1
        exact hl m rfl
  have h0 : (∃ rep, circularReport unit opts c = .ok rep) ∨ circularReport unit opts c = .error .typeError := by
    unfold circularReport
    simp only
    split
    · exact Or.inl ⟨_, rfl⟩
    · exact Or.inl ⟨_, rfl⟩
    · exact Or.inr rfl
  have h1 : opts.returnAverage = true ∨ c.grouped = false → ∃ rep, circularReport unit opts c = .ok rep := by
    intro hc
    refine h0.resolve_right fun h3 => ?_
    obtain ⟨l, hl, hl1⟩ := h2.1 h3
    rcases hc with ha | hg
    · obtain ⟨k, alpha, p, -, -, -, hp⟩ := circular_ok h
      have := hp.median
      rw [ha] at this
      rcases median_single this with hn | ⟨m, hm⟩
      · rw [hn] at hl; cases hl
      · rw [hm] at hl; cases hl; exact hl1 rfl
    · rcases (C97_single_median data w edges unit fc rot kw opts e c h).2 hg with ⟨hn, -⟩ | ⟨m, ci, hm, -⟩
      · rw [hn] at hl; cases hl
      · rw [hm] at hl; cases hl; exact hl1 rfl
  refine ⟨h1, h2, fun hno => ⟨h0.resolve_left fun ⟨rep, hr⟩ => hno rep hr, ?_, ?_⟩⟩
  · by_contra hr
    obtain ⟨rep, hr⟩ := h1 (Or.inl (by simpa using hr))
    exact hno rep hr
  · by_contra hr
    obtain ⟨rep, hr⟩ := h1 (Or.inr (by simpa using hr))
    exact hno rep hr

/-- The object with the full cycle replaced. -/
private lemma circularOf_cycle (k k' : ℝ) (p : Prepared) (kw : Option (Option String)) (opts : MedianOpts) (e : Env) :
    circularOf k' p kw opts e = (circularOf k p kw opts e).map fun c => { c with fullCycle := k' } := by
  unfold circularOf
  simp only
  split
  · rfl
  · cases rayleighTest none none (some _) (some (pyInt p.w.sum)) 1 [] with
    | error _ => rfl
    | ok ray =>
      simp only [Except.bind]
      cases circularMeanCi p _ ray.pval _ _ _ e with
      | error _ => rfl
      | ok ci =>
        simp only
        cases angularStd none none _ (some p.binSize) with
        | error _ => rfl
        | ok s =>
          simp only
          cases circStd none none _ (some p.binSize) with
          | error _ => rfl
          | ok s0 =>
            simp only
            cases circMedian p.alpha p.w opts.method opts.returnAverage opts.averageMethod e.init with
            | error _ => rfl
            | ok med =>
              simp only
              cases circularMedianCi p med e <;> rfl

/-- **C130.** The same directions in another unit (`q` times as many units in a full cycle, every observation `q` times
as large): there is an object and a report exactly as before. Means, medians, the bounds of their intervals and the
standard deviations are `q` times as large, everything else but the name of the unit is the same. -/
theorem C130_units (data : List ℝ) (w edges : Option (List ℝ)) (unit unit' : String) (fc fc' rot : Option ℝ)
    (kw : Option (Option String)) (opts : MedianOpts) (e : Env) {k q : ℝ} (hq : q ≠ 0)
    (hk : fullCycleOf unit fc = .ok k) (hk' : fullCycleOf unit' fc' = .ok (q * k)) (rep : Report) :
    ((circular data w edges unit fc rot kw opts e).bind (circularReport unit opts) = .ok rep ↔
      ((circular (data.map (q * ·)) w edges unit' fc' rot kw opts e).bind (circularReport unit' opts) = .ok
        { rep with
          unit := unit'
          mean := rep.mean.map (q * ·)
          meanCi := rep.meanCi.map fun i => (i.1, q * i.2.1, q * i.2.2)
          median := rep.median.map (q * ·)
          medianCi := rep.medianCi.map fun i => (i.1, q * i.2.1, q * i.2.2)
          s := rep.s.map (q * ·)
          s0 := rep.s0.map (q * ·) } ∧ rep.unit = unit)) := by
  have ha : circularAlpha (data.map (q * ·)) (q * k) rot = circularAlpha data k rot := by
    have : ((data.map (q * ·)).map fun x => data2rad x (q * k)) = data.map fun x => data2rad x k := by
      rw [List.map_map]
      apply List.map_congr_left
      intro x _
      simp only [Function.comp, data2rad]
      rw [mul_left_comm, mul_div_mul_left _ _ hq]
    cases rot with
    | none => simp only [circularAlpha, this]
    | some t => simp only [circularAlpha, this]
  have hobj : circular (data.map (q * ·)) w edges unit' fc' rot kw opts e
      = (circular data w edges unit fc rot kw opts e).map fun c => { c with fullCycle := q * k } := by
    unfold circular
    rw [hk, hk']
    simp only [Except.bind, ha]
    cases circularAlpha data k rot with
    | error _ => rfl
    | ok alpha =>
      simp only
      cases prepare alpha w edges with
      | error _ => rfl
      | ok p => exact circularOf_cycle k (q * k) p kw opts e
  rw [hobj]
  cases hc : circular data w edges unit fc rot kw opts e with
  | error _ => simp [Except.bind, Except.map]
  | ok c =>
    have hfc : c.fullCycle = k := by
      obtain ⟨k1, _, _, h1, -, -, hp⟩ := circular_ok hc
      rw [hk] at h1
      cases h1
      exact hp.fullCycle
    have hout : ∀ x : ℝ, q * k * x / (2 * π) = q * (k * x / (2 * π)) := fun x => by ring
    have hinj : ∀ {a b : Option ℝ}, a.map (q * ·) = b.map (q * ·) → a = b := fun h =>
      Option.map_injective (mul_right_injective₀ hq) h
    have hinj2 : ∀ {a b : Option (ℝ × ℝ × ℝ)}, a.map (fun i => (i.1, q * i.2.1, q * i.2.2))
        = b.map (fun i => (i.1, q * i.2.1, q * i.2.2)) → a = b := fun h => by
      refine Option.map_injective (fun x y hxy => ?_) h
      simp only [Prod.mk.injEq, mul_right_inj' hq] at hxy
      ext <;> simp [hxy]
    simp only [Except.bind, Except.map]
    unfold circularReport
    simp only [hfc]
    have hb : ∀ o : Option (Option (ℝ × ℝ) × ℝ),
        (o.bind fun z => z.1.map fun i => (z.2, rad2data i.1 (some (q * k)), rad2data i.2 (some (q * k))))
        = (o.bind fun z => z.1.map fun i => (z.2, rad2data i.1 (some k), rad2data i.2 (some k))).map
          fun i => (i.1, q * i.2.1, q * i.2.2) := by
      intro o
      rcases o with _ | ⟨_ | ⟨i, j⟩, l⟩
      · rfl
      · rfl
      · simp [rad2data, hout]
    have hm : ∀ o : Option ℝ, (o.map fun x => rad2data x (some (q * k))) = (o.map fun x => rad2data x (some k)).map (q * ·) := by
      intro o
      cases o with
      | none => rfl
      | some x => simp [rad2data, hout]
    have hm2 : ∀ o : Option (ℝ × ℝ),
        (o.map fun z => ((0.95 : ℝ), rad2data z.1 (some (q * k)), rad2data z.2 (some (q * k))))
        = (o.map fun z => ((0.95 : ℝ), rad2data z.1 (some k), rad2data z.2 (some k))).map
          fun i => (i.1, q * i.2.1, q * i.2.2) := by
      intro o
      cases o with
      | none => rfl
      | some x => simp [rad2data, hout]
    cases hmed : c.median with
    | none =>
      simp only [hb, hm, hm2, Except.ok.injEq]
      constructor
      · rintro rfl; exact ⟨rfl, rfl⟩
      · rintro ⟨h1, h2⟩
        cases rep
        simp only [Report.mk.injEq, true_and] at h1 ⊢
        obtain ⟨h3, h4, h5, h6, h7, h8, h9, h10, h11, h12, h13⟩ := h1
        exact ⟨h3, h2.symm, h4, hinj h5, h6, h7, hinj2 h8, hinj h9, hinj2 h10, hinj h11, hinj h12, h13⟩
    | some l =>
      match l with
      | [] => simp
      | _ :: _ :: _ => simp
      | [m] =>
        simp only [hb, hm, hm2, Except.ok.injEq]
        constructor
        · rintro rfl; exact ⟨rfl, rfl⟩
        · rintro ⟨h1, h2⟩
          cases rep
          simp only [Report.mk.injEq, true_and] at h1 ⊢
          obtain ⟨h3, h4, h5, h6, h7, h8, h9, h10, h11, h12, h13⟩ := h1
          exact ⟨h3, h2.symm, h4, hinj h5, h6, h7, hinj2 h8, hinj h9, hinj2 h10, hinj h11, hinj h12, h13⟩

/-- **C130.** Plain observations `x` in units of which `k` make a full cycle: the printed mean `m` is in `[0, k)`, the
sines of the angles from it cancel and their cosines add up to `n` times the printed `r`. -/
theorem C130_mean (data : List ℝ) (unit : String) (fc : Option ℝ) (kw : Option (Option String)) (opts : MedianOpts)
    (e : Env) {k : ℝ} (hk0 : 0 < k) (hk : fullCycleOf unit fc = .ok k) {rep : Report}
    (h : (circular data none none unit fc none kw opts e).bind (circularReport unit opts) = .ok rep) {m : ℝ}
    (hm : rep.mean = some m) :
    0 ≤ m ∧ m < k ∧ (data.map fun x => sin (2 * π * (x - m) / k)).sum = 0 ∧
      (data.map fun x => cos (2 * π * (x - m) / k)).sum = data.length * rep.r := by
  obtain ⟨c, hc, hr⟩ := except_bind_ok h
  obtain ⟨k1, alpha, p, h1, h2, h3, hp⟩ := circular_ok hc
  rw [hk] at h1
  cases h1
  simp only [circularAlpha, Except.ok.injEq] at h2
  simp only [prepare, Except.ok.injEq] at h3
  subst h2 h3
  have hfc := hp.fullCycle
  have hrm : rep.mean = c.mean.map (fun x => rad2data x (some k)) ∧ rep.r = c.r := by
    unfold circularReport at hr
    simp only [hfc] at hr
    split at hr <;> first | (cases hr; exact ⟨rfl, rfl⟩) | cases hr
  rw [hrm.2, hp.r]
  rw [hrm.1, hp.mean] at hm
  simp only at hm ⊢
  obtain ⟨al, hal⟩ : ∃ al, al = data.map fun x => data2rad x k := ⟨_, rfl⟩
  rw [← hal] at hm ⊢
  split_ifs at hm with h0
  · simp at hm
  simp only [Option.map_some, Option.some.injEq] at hm
  obtain ⟨b, hb⟩ : ∃ b, b = angmod2pi (Complex.arg (moment al (ones al) 1)) := ⟨_, rfl⟩
  rw [← hb] at hm
  have hpi := pi_pos
  have hmb : b = 2 * π * m / k := by
    rw [← hm]
    simp only [rad2data]
    field_simp
  have hb0 : 0 ≤ b ∧ b < 2 * π := by rw [hb]; exact ⟨angmod2pi_nonneg _, angmod2pi_lt _⟩
  have hlen : ((ones al).sum : ℝ) = data.length := by
    rw [sum_ones, hal, List.length_map]
  have hsum : resultant al = ((data.length : ℝ) * ‖moment al (ones al) 1‖ : ℝ) * Complex.exp ((b : ℂ) * Complex.I) := by
    have hne : (data.length : ℝ) ≠ 0 := by
      have := hp.sum_ne
      simp only at this
      rw [← hal, hlen] at this
      exact this
    have h4 : resultant al = (data.length : ℂ) * moment al (ones al) 1 := by
      rw [moment, expSum_ones, hlen]
      have : (data.length : ℂ) ≠ 0 := by exact_mod_cast hne
      push_cast
      field_simp
    have h5 : Complex.exp ((b : ℂ) * Complex.I) = Complex.exp ((Complex.arg (moment al (ones al) 1) : ℂ) * Complex.I) := by
      have h6 := angmod2pi_cong (Complex.arg (moment al (ones al) 1))
      rw [← hb] at h6
      rw [Complex.ext_iff, Complex.exp_ofReal_mul_I_re, Complex.exp_ofReal_mul_I_re, Complex.exp_ofReal_mul_I_im,
        Complex.exp_ofReal_mul_I_im]
      exact ⟨cos_eq_of_sameDir h6, sin_eq_of_sameDir h6⟩
    rw [h5, h4]
    conv_lhs => rw [← Complex.norm_mul_exp_arg_mul_I (moment al (ones al) 1)]
    push_cast
    ring
  have hz : (data.map fun x => Complex.exp ((2 * π * (x - m) / k : ℝ) * Complex.I)).sum
      = ((data.length : ℝ) * ‖moment al (ones al) 1‖ : ℝ) := by
    have h7 : ∀ x : ℝ, Complex.exp ((2 * π * (x - m) / k : ℝ) * Complex.I)
        = Complex.exp ((data2rad x k : ℂ) * Complex.I) * Complex.exp (-((b : ℂ) * Complex.I)) := by
      intro x
      rw [← Complex.exp_add]
      congr 1
      rw [hmb, data2rad]
      push_cast
      ring
    simp only [h7]
    rw [List.sum_map_mul_right]
    have h8 : (data.map fun x => Complex.exp ((data2rad x k : ℂ) * Complex.I)).sum = resultant al := by
      rw [hal, resultant, List.map_map]; rfl
    rw [h8, hsum, mul_assoc, ← Complex.exp_add, add_neg_cancel, Complex.exp_zero, mul_one]
  have hre : ∀ l : List ℝ, (l.map fun x => Complex.exp ((2 * π * (x - m) / k : ℝ) * Complex.I)).sum
      = ⟨(l.map fun x => cos (2 * π * (x - m) / k)).sum, (l.map fun x => sin (2 * π * (x - m) / k)).sum⟩ := by
    intro l
    induction l with
    | nil => simp; rfl
    | cons x l ih =>
      simp only [List.map_cons, List.sum_cons]
      rw [ih]
      apply Complex.ext
      · rw [Complex.add_re, Complex.exp_ofReal_mul_I_re]
      · rw [Complex.add_im, Complex.exp_ofReal_mul_I_im]
  rw [hre] at hz
  have h9 := congrArg Complex.re hz
  have h10 := congrArg Complex.im hz
  rw [Complex.ofReal_re] at h9
  rw [Complex.ofReal_im] at h10
  refine ⟨?_, ?_, h10, h9⟩
  · rw [← hm]; simp only [rad2data]
    exact div_nonneg (mul_nonneg hk0.le hb0.1) (by positivity)
  · rw [← hm]; simp only [rad2data]
    rw [div_lt_iff₀ (by positivity)]
    exact mul_lt_mul_of_pos_left hb0.2 hk0

/-- **C130.** Plain observations: the printed sample size is their number, the printed p-value is that of the Rayleigh
test of these directions, and its marks follow the usual convention. -/
theorem C130_test (data : List ℝ) (unit : String) (fc : Option ℝ) (kw : Option (Option String)) (opts : MedianOpts)
    (e : Env) {k : ℝ} (hk : fullCycleOf unit fc = .ok k) {rep : Report}
    (h : (circular data none none unit fc none kw opts e).bind (circularReport unit opts) = .ok rep) :
    rep.n = data.length ∧ rep.grouped = false ∧
    (∃ R, rayleighTest (some (data.map fun x => 2 * π * x / k)) none none none 1 [] = .ok R ∧ rep.pval = R.pval ∧
      rep.r = R.r) ∧
    (rep.stars = "***" ↔ rep.pval < 1 / 1000) ∧ (rep.stars = "**" ↔ 1 / 1000 ≤ rep.pval ∧ rep.pval < 1 / 100) ∧
    (rep.stars = "*" ↔ 1 / 100 ≤ rep.pval ∧ rep.pval < 1 / 20) ∧
    (rep.stars = "." ↔ 1 / 20 ≤ rep.pval ∧ rep.pval < 1 / 10) ∧ (rep.stars = "" ↔ 1 / 10 ≤ rep.pval) := by
  obtain ⟨c, hc, hr⟩ := except_bind_ok h
  obtain ⟨u1, u2, u3, u4, -⟩ := C65_ungrouped data unit fc kw opts e c hc
  obtain ⟨k1, alpha, p, h1, h2, h3, hp⟩ := circular_ok hc
  rw [hk] at h1
  cases h1
  have hrm : rep.n = c.n ∧ rep.pval = c.pval ∧ rep.r = c.r ∧ rep.stars = significanceCode c.pval ∧
      rep.grouped = c.grouped := by
    unfold circularReport at hr
    simp only at hr
    split at hr <;> first | (cases hr; exact ⟨rfl, rfl, rfl, rfl, rfl⟩) | cases hr
  obtain ⟨e1, e2, e3, e4, e5⟩ := hrm
  refine ⟨by rw [e1, u2], by rw [e5, u4], ?_, by rw [e2, e4]; exact C05_significanceCode_spec _⟩
  have hn0 := hp.n_pos
  rw [u2] at hn0
  have hlen : 0 < data.length := by exact_mod_cast hn0
  obtain ⟨a, ha⟩ : ∃ a, a = data.map fun x => 2 * π * x / k := ⟨_, rfl⟩
  have hal : a.length = data.length := by rw [ha, List.length_map]
  have hsum : (ones a).sum = (data.length : ℝ) := by
    simp [ones, List.map_const', hal]
  have hsum0 : (ones a).sum ≠ 0 := by rw [hsum]; exact_mod_cast hlen.ne'
  have hrr : c.r = ‖moment a (ones a) 1‖ := by
    rw [hp.r, ← hp.alpha, ← hp.w, u1, u3, hp.fullCycle, ← ha]
    congr 2
    rw [ha]; simp [ones, Function.comp_def]
  have hround : roundEven (data.length : ℝ) = (data.length : ℤ) := by
    unfold roundEven
    simp
  rw [← ha]
  refine ⟨⟨c.r, (data.length : ℤ) * c.r ^ 2, c.pval, none⟩, ?_, e2, e3⟩
  simp only [rayleighTest, rayleighSample]
  rw [if_neg (by norm_num), if_neg (by omega)]
  simp only [weightsOf, Except.bind, hsum]
  rw [if_neg (by push Not; exact_mod_cast hlen), hround, if_neg, circR_eq, if_neg hsum0, ← hrr]
  · simp only [rayleighOf]
    rw [if_neg (by omega), if_neg (by rw [not_not]; exact ⟨by rw [hrr]; exact norm_nonneg _, hp.r_le⟩), if_neg (by norm_num),
      hp.pval, u2]
  · simp [isclose, rtolDefault, atolDefault]
    positivity

/-- **C130.** The frequencies 1, 1, 1 at 0°, 0°, 180° with `return_average=False`: an object is made, but it cannot be
printed, `TypeError`. -/
theorem C130_unprintable (e : Env) (he : e.init.length = 3) :
    ∃ c, circular [0, 0, 180] (some [1, 1, 1]) none "degree" none none none { returnAverage := false } e = .ok c ∧
      circularReport "degree" { returnAverage := false } c = .error .typeError := by
  have hpi := pi_pos
  have ha : circularAlpha [0, 0, 180] 360 none = .ok [0, 0, π] := by
    simp only [circularAlpha, List.map_cons, List.map_nil, data2rad, Except.ok.injEq]
    refine congrArg₂ _ (by ring) (congrArg₂ _ (by ring) (congrArg₂ _ (by ring) rfl))
  have hsum : (ones [0, 0, π]).sum = 3 := by norm_num [ones]
  have hmom : ‖moment [0, 0, π] (ones [0, 0, π]) 1‖ = 1 / 3 := by
    have : moment [0, 0, π] (ones [0, 0, π]) 1 = ((1 / 3 : ℝ) : ℂ) := by
      rw [moment, expSum_ones, hsum]
      simp [resultant, Complex.exp_pi_mul_I]
    rw [this, Complex.norm_real]; norm_num
  have hcoin : allCoincide [0, 0, π] (ones [0, 0, π]) = false := by
    unfold allCoincide
    rw [circR_eq, if_neg (by rw [hsum]; norm_num), hmom]
    simp only [isclose, rtolDefault]
    norm_num
  have hint : pyInt (ones [0, 0, π]).sum = 3 := by
    rw [hsum]; simp only [pyInt]; norm_num
  obtain ⟨b, l, hmed⟩ : ∃ b l, circMedian [0, 0, π] (ones [0, 0, π]) "deviation" false "all" e.init
      = .ok (some (0 :: b :: l)) := by
    rw [C18_deviation_candidates [0, 0, π] e.init (by simp) (by simp [he]) hcoin "all" _ (fun _ => rfl)]
    have e0 : (([0, 0, π] : List ℝ).map fun a => π - |π - (|a - 0|)|).sum / ([0, 0, π] : List ℝ).length = π / 3 := by
      simp [abs_of_pos hpi]
    have e1 : (([0, 0, π] : List ℝ).map fun a => π - |π - (|a - π|)|).sum / ([0, 0, π] : List ℝ).length
        = 2 * π / 3 := by
      simp [abs_of_pos hpi]; ring
    have hlt : round5 (π / 3) < round5 (2 * π / 3) := by
      have h3 := pi_gt_three
      have h4 := abs_le.1 (round5_bound (π / 3))
      have h5 := abs_le.1 (round5_bound (2 * π / 3))
      norm_num at h4 h5
      linarith [h4.2, h5.1]
    rw [if_neg]
    · have hf : (([0, 0, π] : List ℝ).filter fun b => decide (∀ b' ∈ ([0, 0, π] : List ℝ),
          round5 ((([0, 0, π] : List ℝ).map fun a => π - |π - (|a - b|)|).sum / ([0, 0, π] : List ℝ).length) ≤
          round5 ((([0, 0, π] : List ℝ).map fun a => π - |π - (|a - b'|)|).sum / ([0, 0, π] : List ℝ).length)))
          = [0, 0] := by
        rw [List.filter_cons_of_pos, List.filter_cons_of_pos, List.filter_cons_of_neg]
        · rfl
        · simp only [List.mem_cons, List.not_mem_nil, or_false, forall_eq_or_imp, forall_eq, e0, e1]
          simp [hlt]
        · simp only [List.mem_cons, List.not_mem_nil, or_false, forall_eq_or_imp, forall_eq, e0, e1]
          simp [hlt.le]
        · simp only [List.mem_cons, List.not_mem_nil, or_false, forall_eq_or_imp, forall_eq, e0, e1]
          simp [hlt.le]
      rw [hf]
      refine ⟨0, [], ?_⟩
      simp [angmod2pi_eq_self le_rfl (by positivity : (0 : ℝ) < 2 * π)]
    · intro hh
      have := hh 0 (by simp) π (by simp)
      rw [e0, e1] at this
      exact hlt.ne this
  have hone : ones [0, 0, π] = [1, 1, 1] := rfl
  obtain ⟨bs, hb⟩ : ∃ bs, prepare [0, 0, π] (some [1, 1, 1]) none = .ok ⟨[0, 0, π], [1, 1, 1], true, bs⟩ := by
    unfold prepare
    simp only
    rw [if_neg (by simp)]
    simp only [diff, List.tail_cons, List.zipWith_cons_cons, List.zipWith_nil_right, minL]
    exact ⟨_, rfl⟩
  obtain ⟨c, hc⟩ := (circularOf_quiet (k := 360) (kw := none) (opts := { returnAverage := false }) (e := e) (mci := none)
    (p := ⟨[0, 0, π], ones [0, 0, π], true, bs⟩)
    (by rw [hsum]; norm_num) (by rw [hint]; norm_num) (by rw [hmom]; norm_num) (by
      simp only
      rw [hint, hmom]
      have h5 : (6.6 : ℝ) ≤ sqrt 45 := by apply le_sqrt_of_sq_le; norm_num
      have := add_one_le_exp (sqrt 45 - 7)
      have e1 : sqrt (1 + 4 * ((3 : ℤ) : ℝ) + 4 * (((3 : ℤ) : ℝ) ^ 2 - (((3 : ℤ) : ℝ) * (1 / 3)) ^ 2))
          - (1 + 2 * ((3 : ℤ) : ℝ)) = sqrt 45 - 7 := by norm_num
      rw [e1]; linarith) hmed).1 rfl
  have hC : circular [0, 0, 180] (some [1, 1, 1]) none "degree" none none none { returnAverage := false } e = .ok c := by
    simp only [circular, fullCycleOf, if_true, Except.bind, ha, hb]
    exact hc
  refine ⟨c, hC, ((C130_exists _ _ _ _ _ _ _ _ e c hC).2.1).2 ⟨0 :: b :: l, ?_, by simp⟩⟩
  have h1 := (circularOf_ok hc).median
  simp only at h1
  rw [hmed] at h1
  simpa using h1.symm

/-! ## C131: the dictionary of options -/

/-- Specification: the entry of a dictionary under a key. -/
def entry (d : Options) (key : String) : Option String := d.lookup key

private lemma lookup_filter (d : Options) (key : String) :
    (d.filter fun q => q.1 ≠ "method").lookup key = if key = "method" then none else d.lookup key := by
  induction d with
  | nil => simp
  | cons q d ih =>
    obtain ⟨a, b⟩ := q
    by_cases ha : a = "method"
    · rw [List.filter_cons_of_neg (by simp [ha]), ih]
      split_ifs with hk
      · rfl
      · rw [List.lookup_cons, ha]
        have : (key == "method") = false := by simpa using hk
        rw [this]
    · rw [List.filter_cons_of_pos (by simpa using ha), List.lookup_cons, List.lookup_cons, ih]
      by_cases hk : key = a
      · have : (key == a) = true := by simpa using hk
        rw [this]
        simp [hk, ha]
      · have : (key == a) = false := by simpa using hk
        rw [this]

private lemma reads_of_ok {data : List ℝ} {w edges : Option (List ℝ)} {unit : String} {fc rot : Option ℝ}
    {kw : Option (Option String)} {opts : MedianOpts} {e : Env} {c : CircularObj}
    (h : circular data w edges unit fc rot kw opts e = .ok c) : readsOptions data w edges unit fc rot = true := by
  obtain ⟨k, hk, h⟩ := except_bind_ok h
  obtain ⟨alpha, ha, h⟩ := except_bind_ok h
  obtain ⟨p, hp, h⟩ := except_bind_ok h
  unfold circularOf at h
  simp only at h
  unfold readsOptions
  simp only [hk, ha, hp, Except.bind]
  cases hm : circMeanAndR p.alpha p.w with
  | none => rw [hm] at h; cases h
  | some q =>
    obtain ⟨mean, r⟩ := q
    rw [hm] at h
    simp only at h ⊢
    obtain ⟨ray, hray, -⟩ := except_bind_ok h
    rw [hray]

section

variable {data : List ℝ} {w edges : Option (List ℝ)} {unit : String} {fc rot : Option ℝ} {opts : MedianOpts} {e : Env}
  {d : Options}

/-- **C131.** The method of the interval is the entry `"method"` of the dictionary, or the bootstrap; no other entry has
an effect. The object made, the entry `"method"` is gone from the caller's dictionary, the others are still there. -/
theorem C131_entries {c : CircularObj} {d1 : Options}
    (h : circularOptions data w edges unit fc rot d opts e = (.ok c, d1)) :
    c.meanCiMethod = some ((entry d "method").getD "bootstrap") ∧
    (∀ key, entry d1 key = if key = "method" then none else entry d key) ∧
    ∀ d' : Options, entry d' "method" = entry d "method" →
      (circularOptions data w edges unit fc rot d' opts e).1 = .ok c := by
  unfold circularOptions at h
  rw [Prod.mk.injEq] at h
  obtain ⟨h1, h2⟩ := h
  rw [if_pos (reads_of_ok h1)] at h2
  refine ⟨?_, fun key => ?_, fun d' hd => ?_⟩
  · obtain ⟨k, alpha, p, -, -, -, hp⟩ := circular_ok h1
    rw [hp.method]; rfl
  · rw [← h2]; exact lookup_filter d key
  · unfold circularOptions
    have : (popMethod d').1 = (popMethod d).1 := by
      unfold popMethod
      exact congrArg (fun o : Option String => o.getD "bootstrap") hd
    simp only [this, h1]

/-- **C131.** Two objects should be made alike when they are made with the same options. They are not: the first call
takes the method out of the dictionary, and every object made with that dictionary afterwards, of whatever data, uses
the bootstrap. -/
theorem C131_reuse {c c' : CircularObj} {d1 d2 : Options}
    (h : circularOptions data w edges unit fc rot d opts e = (.ok c, d1))
    {data' : List ℝ} {w' edges' : Option (List ℝ)} {unit' : String} {fc' rot' : Option ℝ} {opts' : MedianOpts} {e' : Env}
    (h' : circularOptions data' w' edges' unit' fc' rot' d1 opts' e' = (.ok c', d2)) :
    c'.meanCiMethod = some "bootstrap" := by
  rw [(C131_entries h').1, (C131_entries h).2.1 "method", if_pos rfl]
  rfl

private lemma second_core {c c' : CircularObj} {d1 d2 : Options}
    (h : circularOptions data w edges unit fc rot d opts e = (.ok c, d1)) (hp : c.pval < 0.05)
    (h' : circularOptions data w edges unit fc rot d1 opts e = (.ok c', d2))
    (heven : moment c.alpha (ones c.alpha) 1 = 0) : False := by
  have hmeth := C131_reuse h h'
  have h1 : circular data w edges unit fc rot (some (some (popMethod d).1)) opts e = .ok c := congrArg Prod.fst h
  have h2 : circular data w edges unit fc rot (some (some (popMethod d1).1)) opts e = .ok c' := congrArg Prod.fst h'
  obtain ⟨k, alpha, p, hk, ha, hpr, hc⟩ := circular_ok h1
  obtain ⟨k', alpha', p', hk', ha', hpr', hc'⟩ := circular_ok h2
  rw [hk] at hk'; cases hk'
  rw [ha] at ha'; cases ha'
  rw [hpr] at hpr'; cases hpr'
  have hpv : c'.pval = c.pval := by rw [hc'.pval, hc.pval, hc'.n, hc.n, hc'.r, hc.r]
  have h3 := hc'.meanCi
  rw [hmeth] at h3
  simp only [circularMeanCi, if_pos (hpv ▸ hp : c'.pval < 0.05)] at h3
  rw [C22_bootstrap_refused] at h3
  · cases h3
  · right; right
    rw [← hc.alpha, heven]
    norm_num

/-- **C131.** Data binned by the constructor, with a significant direction: no object can be made with the dictionary a
second time, although the first call with it, on the same data, made one. -/
theorem C131_binned_second_call_fails {m : ℕ} (hm : 2 ≤ m) {c : CircularObj} {d1 : Options}
    (h : circularOptions data w (some (histEdges m)) unit fc rot d opts e = (.ok c, d1)) (hp : c.pval < 0.05) :
    ∀ c' d2, circularOptions data w (some (histEdges m)) unit fc rot d1 opts e ≠ (.ok c', d2) := by
  intro c' d2 h'
  refine second_core h hp h' ?_
  obtain ⟨k, alpha, p, hk, ha, hpr, hc⟩ := circular_ok (congrArg Prod.fst h)
  have h4 : p.alpha = (List.range m).map fun i : ℕ => π / m + i * (2 * π / m) := by
    unfold prepare at hpr
    simp only at hpr
    split at hpr
    · simp at hpr
    · cases hpr
      apply List.ext_getElem
      · simp [histEdges]
      · intro i h1 h2
        simp [histEdges]
        ring
  rw [hc.alpha, h4, moment_even _ m hm _ (List.forall₂_same.2 fun x _ => CongMod.refl _ x)]

/-- **C131.** The same for frequencies of evenly spaced bins. -/
theorem C131_grouped_second_call_fails {ws : List ℝ} {m : ℕ} (hm : 2 ≤ m) {d0 : ℝ} {c : CircularObj} {d1 : Options}
    (h : circularOptions data (some ws) none unit fc rot d opts e = (.ok c, d1)) (hk : c.fullCycle ≠ 0)
    (hd : data = (List.range m).map fun i : ℕ => d0 + i * (c.fullCycle / m)) (hp : c.pval < 0.05) :
    ∀ c' d2, circularOptions data (some ws) none unit fc rot d1 opts e ≠ (.ok c', d2) := by
  intro c' d2 h'
  refine second_core h hp h' ?_
  obtain ⟨k, alpha, p, -, ha, hpr, hc⟩ := circular_ok (congrArg Prod.fst h)
  rw [hc.fullCycle] at hk hd
  obtain ⟨a0, ha0⟩ := alpha_even hk hd ha
  have : p.alpha = alpha := by
    unfold prepare at hpr
    simp only at hpr
    split_ifs at hpr
    split at hpr
    · simp at hpr
    · cases hpr; rfl
  rw [hc.alpha, this]
  exact moment_even _ m hm a0 ha0

end

/-- **C131.** Thirty observations in the first of four quadrants, given as frequencies, with `{"method": "dispersion"}`
as a dictionary: the first call makes an object, the second, with the same arguments, does not. -/
theorem C131_witness (e : Env) (hz0 : 0 ≤ e.z) (hz : e.z ≤ 1.96) :
    ∃ c d1, circularOptions [0, 90, 180, 270] (some [30, 0, 0, 0]) none "degree" none none [("method", "dispersion")] {} e
        = (.ok c, d1) ∧
      ∀ c' d2, circularOptions [0, 90, 180, 270] (some [30, 0, 0, 0]) none "degree" none none d1 {} e ≠ (.ok c', d2) := by
  have hpi := pi_pos
  obtain ⟨al, hal⟩ : ∃ al : List ℝ, al = [0, π / 2, π, 3 * π / 2] := ⟨_, rfl⟩
  obtain ⟨ww, hww⟩ : ∃ ww : List ℝ, ww = [30, 0, 0, 0] := ⟨_, rfl⟩
  have ha : circularAlpha [0, 90, 180, 270] 360 none = .ok al := by
    rw [hal]
    simp only [circularAlpha, List.map_cons, List.map_nil, data2rad, Except.ok.injEq]
    refine congrArg₂ _ (by ring) (congrArg₂ _ (by ring) (congrArg₂ _ (by ring) (congrArg₂ _ (by ring) rfl)))
  obtain ⟨b, hb⟩ : ∃ b, prepare al (some ww) none = .ok ⟨al, ww, true, b⟩ := by
    rw [hal, hww]
    unfold prepare
    simp only
    rw [if_neg (by simp)]
    simp only [diff, List.tail_cons, List.zipWith_cons_cons, List.zipWith_nil_right, minL]
    exact ⟨_, rfl⟩
  have hsum : ww.sum = 30 := by simp [hww]
  have hmom : moment al ww 1 = 1 := by simp [moment, expSum, hal, hww]
  have hnorm : ‖moment al ww 1‖ = 1 := by rw [hmom]; simp
  have hint : pyInt ww.sum = 30 := by
    rw [hsum]; simp only [pyInt]; norm_num
  have hpv : exp (sqrt (1 + 4 * ((30 : ℤ) : ℝ) + 4 * (((30 : ℤ) : ℝ) ^ 2 - (((30 : ℤ) : ℝ) * 1) ^ 2))
      - (1 + 2 * ((30 : ℤ) : ℝ))) < 0.05 := by
    have h1 : sqrt (1 + 4 * ((30 : ℤ) : ℝ) + 4 * (((30 : ℤ) : ℝ) ^ 2 - (((30 : ℤ) : ℝ) * 1) ^ 2)) ≤ 58 := by
      apply sqrt_le_iff.2; norm_num
    have he1 := exp_one_gt_d9
    calc _ ≤ exp (-3) := by apply exp_le_exp.2; push_cast at h1 ⊢; linarith
      _ = (exp 1 ^ 3)⁻¹ := by rw [exp_neg, ← exp_nat_mul]; norm_num
      _ ≤ (2.7182818283 ^ 3)⁻¹ :=
        inv_anti₀ (by norm_num) (pow_le_pow_left₀ (by norm_num) he1.le 3)
      _ < 0.05 := by norm_num
  obtain ⟨ray, hray⟩ : ∃ ray, rayleighTest none none (some (1 : ℝ)) (some 30) 1 [] = .ok ray := by
    simp [rayleighTest, rayleighOf]
  have hrp : ray.pval < 0.05 := by rw [(rayleigh_ok hray).2.2]; exact hpv
  obtain ⟨lb, ub, d, hci, -⟩ := C98_large_samples al ww (by simp [hal, hww]) (by simp [hww]) 30 (by norm_num)
    (by rw [hsum]; norm_num) (angmod2pi (Complex.arg (moment al ww 1))) 1 b true e hnorm.symm ray hray hrp hz0 hz
  have hmeth : meanCiMethod none ray.pval 30 = some "dispersion" := by
    simp only [meanCiMethod]
    rw [if_neg (by norm_num), if_pos ⟨hrp, by norm_num⟩]
  rw [hmeth] at hci
  have hmed : circMedian al ww "deviation" true "all" e.init = .ok (some [0]) := by
    have : allCoincide al ww = true := by
      unfold allCoincide
      rw [circR_eq, if_neg (by rw [hsum]; norm_num), hnorm]
      simp [isclose, rtolDefault]
      positivity
    unfold circMedian
    rw [if_pos this, hal]
  obtain ⟨c, hc⟩ : ∃ c, circularOf 360 ⟨al, ww, true, b⟩ (some (some "dispersion")) {} e = .ok c := by
    obtain ⟨s, hs1⟩ : ∃ s, angularStd none none (some (1 : ℝ)) (some b) = .ok s := ⟨_, rfl⟩
    obtain ⟨s0, hs0⟩ : ∃ s, circStd none none (some (1 : ℝ)) (some b) = .ok s := ⟨_, rfl⟩
    unfold circularOf
    simp only
    rw [circMeanAndR_eq, if_neg (by rw [hsum]; norm_num)]
    simp only [hint, hnorm]
    rw [if_neg (by norm_num), hray]
    simp only [Except.bind]
    have h2 : meanCiMethod (some (some "dispersion")) ray.pval 30 = some "dispersion" := rfl
    rw [h2, hci]
    simp only [hs1, hs0, hmed]
    exact ⟨_, rfl⟩
  have hC : circular [0, 90, 180, 270] (some [30, 0, 0, 0]) none "degree" none none (some (some "dispersion")) {} e
      = .ok c := by
    rw [← hww]
    simp only [circular, fullCycleOf, if_true, Except.bind, ha, hb]
    exact hc
  have hparts := circularOf_ok hc
  obtain ⟨d1, hcall⟩ : ∃ d1, circularOptions [0, 90, 180, 270] (some [30, 0, 0, 0]) none "degree" none none
      [("method", "dispersion")] {} e = (.ok c, d1) := ⟨_, Prod.ext hC rfl⟩
  refine ⟨c, d1, hcall, C131_grouped_second_call_fails (m := 4) (by norm_num) (d0 := 0) hcall ?_ ?_ ?_⟩
  · rw [hparts.fullCycle]; norm_num
  · rw [hparts.fullCycle]
    simp only [List.range, List.range.loop, List.map_cons, List.map_nil]
    norm_num
  · rw [hparts.pval, hparts.n, hparts.r, hint, hnorm]; exact hpv

/-- `{"method": "dispersion", "ci": "0.99"}`: the first call uses the dispersion and leaves `{"ci": "0.99"}`. -/
example : popMethod [("method", "dispersion"), ("ci", "0.99")] = ("dispersion", [("ci", "0.99")]) ∧
    popMethod [("ci", "0.99")] = ("bootstrap", [("ci", "0.99")]) := by
  decide

/-- **C131.** A constructor that fails early, because the unit is unknown or because there are not as many frequencies as
directions, leaves the caller's dictionary as it was. -/
theorem C131_early_failure (data : List ℝ) (w edges : Option (List ℝ)) (unit : String) (fc rot : Option ℝ)
    (d : Options) (opts : MedianOpts) (e : Env)
    (h : (fc = none ∧ unit ≠ "degree" ∧ unit ≠ "radian" ∧ unit ≠ "hour") ∨
      (rot = none ∧ edges = none ∧ ∃ f, w = some f ∧ f.length ≠ data.length)) :
    ∃ err, circularOptions data w edges unit fc rot d opts e = (.error err, d) := by
  have key : readsOptions data w edges unit fc rot = false := by
    unfold readsOptions
    rcases h with ⟨rfl, h1, h2, h3⟩ | ⟨rfl, rfl, f, rfl, hf⟩
    · simp [fullCycleOf, h1, h2, h3, Except.bind]
    · cases hk : fullCycleOf unit fc with
      | error err => simp [Except.bind]
      | ok k => simp [Except.bind, circularAlpha, prepare, hf]
  cases hc : circular data w edges unit fc rot (some (some (popMethod d).1)) opts e with
  | error err => exact ⟨err, by unfold circularOptions; rw [hc, key]; rfl⟩
  | ok c => rw [reads_of_ok hc] at key; cases key

end Verif.Props
