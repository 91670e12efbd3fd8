import Verif.Model.DistDerived
import Verif.Props.DistSimple
import Verif.Props.Distn
import Verif.Props.DistVonMises
import Verif.Lemmas.BesselDeriv
import Mathlib.Analysis.SpecialFunctions.Exp

/-! # Property C132: logarithmic and inverse forms, intervals and likelihoods of distributions -/

set_option autoImplicit false

namespace Verif

open Real Verif.Spec

/-! ## Logarithms -/

/-- The exponential of a logarithm, with `exp(-inf) = 0`. -/
noncomputable def expLog (v : EReal) : ℝ := if v = ⊥ then 0 else exp v.toReal

private lemma expLog_npLog {v : ℝ} (h : 0 ≤ v) : expLog (npLog v) = v := by
  unfold npLog
  by_cases h0 : v = 0
  · simp [h0, expLog]
  · rw [if_neg h0]
    unfold expLog
    rw [if_neg (EReal.coe_ne_bot _), EReal.toReal_coe, exp_log (lt_of_le_of_ne h (Ne.symm h0))]

private lemma expLog_bot : expLog ⊥ = 0 := by simp [expLog]

private lemma expLog_zero : expLog 0 = 1 := by
  unfold expLog; rw [if_neg EReal.zero_ne_bot]; simp

/-- **C132.** `logcdf` and `logsf` are the logarithms of `cdf` and `sf`, at every angle, wrapped or not, also where these
are 0 (`-inf`), and are `nan` for the same parameters. -/
theorem C132_log {σ : Type} (D : Family σ) (s : σ) (h : ∀ x, 0 < x → x < 2 * π → 0 ≤ D.cdf x s ∧ D.cdf x s ≤ 1) (x : ℝ) :
    (distLogcdf D x s).map expLog = distCdf D x s ∧ (distLogsf D x s).map expLog = distSf D x s := by
  unfold distLogcdf distCdf distLogsf distSf
  by_cases ha : D.argcheck s
  · simp only [ha, not_true_eq_false, if_false]
    constructor
    · by_cases h1 : 2 * π ≤ wrap2pi x
      · simp [h1, expLog_zero]
      · rw [if_neg h1, if_neg h1]
        by_cases h2 : 0 < wrap2pi x
        · simp [h2, expLog_npLog (h _ h2 (not_le.mp h1)).1]
        · simp [h2, expLog_bot]
    · by_cases h1 : wrap2pi x ≤ 0
      · simp [h1, expLog_zero]
      · rw [if_neg h1, if_neg h1]
        by_cases h2 : wrap2pi x < 2 * π
        · have := (h _ (not_le.mp h1) h2).2
          simp only [h2, if_true, Option.map_some]
          rw [expLog_npLog (by linarith)]
        · simp [h2, expLog_bot]
  · simp [ha]

/-! ## Inverse survival function and intervals -/

/-- **C132.** `isf(q)` is `ppf(1 - q)`, also at the ends and outside `[0, 1]`, and inverts `sf` as well as `ppf`
inverts `cdf`. -/
theorem C132_isf {σ : Type} (D : Family σ) (s : σ) (q : ℝ) :
    distIsf D q s = distPpf D (1 - q) s ∧
    ∀ tol, InvertsCdf (fun q => distPpf D q s) (fun x => distCdf D x s) tol → 0 ≤ q → q ≤ 1 →
      ∃ x c, distIsf D q s = some x ∧ 0 ≤ x ∧ x ≤ 2 * π ∧ distSf D x s = some c ∧ |c - q| ≤ tol := by
  have he : distIsf D q s = distPpf D (1 - q) s := by
    unfold distIsf distPpf
    by_cases ha : D.argcheck s
    · simp only [ha, not_true_eq_false, if_false]
      by_cases h0 : q = 0
      · simp [h0]
      · by_cases h1 : q = 1
        · simp [h1]
        · have h1' : ¬ (1 - q = 0) := fun e => h1 (by linarith)
          have h0' : ¬ (1 - q = 1) := fun e => h0 (by linarith)
          rw [if_neg h0, if_neg h1, if_neg h1', if_neg h0']
          by_cases h2 : 0 < q ∧ q < 1
          · rw [if_pos h2, if_pos ⟨by linarith [h2.2], by linarith [h2.1]⟩]
          · rw [if_neg h2, if_neg (fun h => h2 ⟨by linarith [h.2], by linarith [h.1]⟩)]
    · simp [ha]
  refine ⟨he, fun tol h h0 h1 => ?_⟩
  obtain ⟨x, c, p1, p2, p3, p4, p5⟩ := h.1 (1 - q) (by linarith) (by linarith)
  refine ⟨x, 1 - c, by rw [he]; exact p1, p2, p3, C67_sf D s x c p4, ?_⟩
  rw [show 1 - c - q = -(c - (1 - q)) by ring, abs_neg]
  exact p5

/-- **C132.** `interval(confidence)` refuses confidences outside `[0, 1]`; otherwise its ends are angles in `[0, 2π]` and
the probabilities before, between and after them are `(1 - confidence)/2`, `confidence` and `(1 - confidence)/2` up to the
accuracy of `ppf`. -/
theorem C132_interval {σ : Type} (D : Family σ) (s : σ) {tol : ℝ}
    (h : InvertsCdf (fun q => distPpf D q s) (fun x => distCdf D x s) tol) (conf : ℝ) :
    (conf < 0 ∨ 1 < conf → distInterval D conf s = .error .valueError) ∧
    (0 ≤ conf → conf ≤ 1 → ∃ lo hi cl ch, distInterval D conf s = .ok (some lo, some hi) ∧
      0 ≤ lo ∧ lo ≤ 2 * π ∧ 0 ≤ hi ∧ hi ≤ 2 * π ∧ distCdf D lo s = some cl ∧ distCdf D hi s = some ch ∧
      |cl - (1 - conf) / 2| ≤ tol ∧ |(1 - ch) - (1 - conf) / 2| ≤ tol ∧ |(ch - cl) - conf| ≤ 2 * tol) := by
  refine ⟨fun hc => by simp [distInterval, hc], fun h0 h1 => ?_⟩
  obtain ⟨lo, cl, p1, p2, p3, p4, p5⟩ := h.1 ((1 - conf) / 2) (by linarith) (by linarith)
  obtain ⟨hi, ch, q1, q2, q3, q4, q5⟩ := h.1 ((1 + conf) / 2) (by linarith) (by linarith)
  refine ⟨lo, hi, cl, ch, ?_, p2, p3, q2, q3, p4, q4, p5, ?_, ?_⟩
  · unfold distInterval
    rw [if_neg (by rintro (h | h) <;> linarith)]
    exact congrArg Except.ok (Prod.ext p1 q1)
  · rw [show 1 - ch - (1 - conf) / 2 = -(ch - (1 + conf) / 2) by ring, abs_neg]; exact q5
  · rw [abs_le] at p5 q5 ⊢
    constructor <;> linarith [p5.1, p5.2, q5.1, q5.2]

/-- **C132 (negative).** The direction 0 is in no interval of a confidence below `1 - 2 tol`, whatever the distribution:
both ends lie strictly between 0 and `2π`. The interval is one on the line, not on the circle. -/
theorem C132_interval_misses_zero {σ : Type} (D : Family σ) (s : σ) {tol : ℝ}
    (h : InvertsCdf (fun q => distPpf D q s) (fun x => distCdf D x s) tol) {conf : ℝ} (h0 : 0 ≤ conf)
    (h1 : conf < 1 - 2 * tol) :
    ∃ lo hi, distInterval D conf s = .ok (some lo, some hi) ∧ 0 < lo ∧ lo < 2 * π ∧ 0 < hi ∧ hi < 2 * π := by
  have ht : 0 ≤ tol := by
    obtain ⟨x, c, -, -, -, -, p⟩ := h.1 0 le_rfl zero_le_one
    exact (abs_nonneg _).trans p
  obtain ⟨lo, hi, cl, ch, p1, p2, p3, p4, p5, p6, p7, p8, p9, -⟩ := (C132_interval D s h conf).2 h0 (by linarith)
  have ha : D.argcheck s := by
    by_contra hn
    simp [distCdf, hn] at p6
  have hs := C67_cdf_seam D s ha 0 (by norm_num)
  simp only [Int.cast_zero, zero_mul] at hs
  have key : ∀ x c, 0 ≤ x → x ≤ 2 * π → distCdf D x s = some c → 0 < c → c < 1 → 0 < x ∧ x < 2 * π := by
    intro x c hx0 hx1 hc hc0 hc1
    constructor
    · refine lt_of_le_of_ne hx0 fun e => ?_
      rw [← e, hs.2.2.1] at hc
      simp only [Option.some.injEq] at hc; linarith
    · refine lt_of_le_of_ne hx1 fun e => ?_
      rw [e, hs.1] at hc
      simp only [Option.some.injEq] at hc; linarith
  rw [abs_le] at p8 p9
  have a := key lo cl p2 p3 p6 (by linarith [p8.1]) (by linarith [p8.2])
  have b := key hi ch p4 p5 p7 (by linarith [p9.2]) (by linarith [p9.1])
  exact ⟨lo, hi, p1, a.1, a.2, b.1, b.2⟩

/-- The cardioid distribution with mean direction 0: its 99% interval does not contain the mean direction. -/
example : ∃ lo hi, distInterval cardioid (99 / 100) (0, 1 / 4) = .ok (some lo, some hi) ∧ 0 < lo ∧ lo < 2 * π ∧
    0 < hi ∧ hi < 2 * π := by
  exact C132_interval_misses_zero cardioid (0, 1 / 4)
    (C74_ppf le_rfl (by linarith [pi_gt_three]) (by norm_num) (by norm_num)) (by norm_num) (by norm_num)

private lemma tri_interval_raw {rho q : ℝ} (h0 : 1 / 10 ^ 12 < rho) (hq : q < 1 / 2) :
    triPpfRaw q rho + triPpfRaw (1 - q) rho = 2 * π := by
  have hpi := pi_pos
  have hr : 0 < rho := lt_trans (by positivity) h0
  have hn : ¬ isclose rho 0 rtolDefault (1 / 10 ^ 12) := by
    rw [isclose_zero_iff, abs_of_pos hr]; exact not_le.mpr h0
  unfold triPpfRaw
  rw [if_neg hn, if_neg hn, if_pos hq.le, if_neg (by linarith)]
  simp only
  have hd : (-(4 + π ^ 2 * rho) / π) ^ 2 - 4 * rho * (8 * q)
      = ((4 - 3 * π ^ 2 * rho) / π) ^ 2 - 4 * rho * (2 * π ^ 2 * rho - 8 * (1 - q)) := by
    field_simp; ring
  rw [hd]
  field_simp
  ring

/-- **C132 (negative).** The interval of a triangular distribution, whose mean direction is 0, is the arc around the
opposite direction `π`: it runs from some `lo` to `2π - lo`, holds the requested probability exactly, and the density
on it is everywhere smaller than outside. It is the longest arc with this probability instead of the shortest. -/
theorem C132_interval_antimode {rho conf : ℝ} (h0 : 1 / 10 ^ 12 < rho) (h1 : rho ≤ 4 / π ^ 2) (hc0 : 0 < conf)
    (hc1 : conf ≤ 1 - 2 / 10 ^ 14) :
    ∃ lo, distInterval triangular conf rho = .ok (some lo, some (2 * π - lo)) ∧ 0 < lo ∧ lo < π ∧
      (∫ x in lo..(2 * π - lo), triangular.pdf x rho) = conf ∧
      ∀ x y, lo ≤ x → x ≤ 2 * π - lo → 0 ≤ y → y ≤ 2 * π → (y < lo ∨ 2 * π - lo < y) →
        triangular.pdf x rho < triangular.pdf y rho := by
  have hpi := pi_gt_three
  have hr : 0 < rho := lt_trans (by positivity) h0
  have h14 : (0 : ℝ) < 1 / 10 ^ 14 := by positivity
  have e14 : (2 : ℝ) / 10 ^ 14 = 2 * (1 / 10 ^ 14) := by ring
  rw [e14] at hc1
  obtain ⟨a1, a2, -, a4⟩ := triPpf_spec hr.le h1 (q := (1 - conf) / 2) (by linarith) (by linarith)
  obtain ⟨a5, a6, a7⟩ := a4 h0 (by linarith)
  obtain ⟨b1, b2, -, b4⟩ := triPpf_spec hr.le h1 (q := (1 + conf) / 2) (by linarith) (by linarith)
  obtain ⟨b5, b6, b7⟩ := b4 h0 (by linarith)
  have hsum := tri_interval_raw (rho := rho) (q := (1 - conf) / 2) h0 (by linarith)
  rw [show 1 - (1 - conf) / 2 = (1 + conf) / 2 by ring, ← a5, ← b5] at hsum
  obtain ⟨lo, hlo⟩ : ∃ lo, triPpf ((1 - conf) / 2) rho = lo := ⟨_, rfl⟩
  have hhi : triPpf ((1 + conf) / 2) rho = 2 * π - lo := by rw [← hlo]; linarith
  rw [hlo] at a1 a2 a6 a7
  rw [hhi] at b1 b2 b6 b7
  have hlt : lo < π := by
    by_contra hge
    have := (triCdf_sub hr.le h1 b1 (by linarith : 2 * π - lo ≤ lo) a2).1
    rw [a7, b7] at this
    linarith
  have hpos : 0 < lo := by
    refine lt_of_le_of_ne a1 fun e => ?_
    rw [← e, triCdf_left le_rfl (by linarith)] at a7
    simp at a7; linarith
  have hppf : ∀ q, 0 < q → q < 1 → distPpf triangular q rho = some (triPpf q rho) := by
    intro q hq0 hq1
    unfold distPpf
    rw [if_neg (not_not.mpr (show triangular.argcheck rho from ⟨hr.le, h1⟩)), if_neg hq0.ne', if_neg hq1.ne,
      if_pos ⟨hq0, hq1⟩]
    rfl
  refine ⟨lo, ?_, hpos, hlt, ?_, ?_⟩
  · unfold distInterval
    rw [if_neg (by rintro (h | h) <;> linarith), hppf _ (by linarith) (by linarith), hppf _ (by linarith) (by linarith),
      hlo, hhi]
  · have hi := fun a b : ℝ => (triPdf_continuous rho).intervalIntegrable (μ := MeasureTheory.volume) a b
    have := intervalIntegral.integral_interval_sub_left (hi 0 (2 * π - lo)) (hi 0 lo)
    show (∫ x in lo..(2 * π - lo), triPdf x rho) = conf
    rw [← this, ← triCdf_eq_integral b1 b2, ← triCdf_eq_integral a1 a2, a7, b7]; ring
  · intro x y hx0 hx1 hy0 hy1 hy
    show triPdf x rho < triPdf y rho
    unfold triPdf
    have hx : |π - x| ≤ π - lo := by rw [abs_le]; constructor <;> linarith
    have hy' : π - lo < |π - y| := by
      rw [lt_abs]
      rcases hy with h | h
      · left; linarith
      · right; linarith
    have : 2 * π * rho * |π - x| < 2 * π * rho * |π - y| := by
      apply mul_lt_mul_of_pos_left (by linarith) (by positivity)
    gcongr

example : ∃ lo, distInterval triangular (1 / 2) (1 / 4) = .ok (some lo, some (2 * π - lo)) ∧ 0 < lo := by
  have hpi := pi_gt_three
  have hpi2 := pi_lt_four
  obtain ⟨lo, h, h', -⟩ := C132_interval_antimode (rho := 1 / 4) (conf := 1 / 2) (by norm_num)
    (by rw [le_div_iff₀ (by positivity)]; nlinarith) (by norm_num) (by norm_num)
  exact ⟨lo, h, h'⟩

/-! ## Likelihood -/

private lemma nnlf_parts {n : ℕ} {shapes : List ℝ} (hn : shapes.length = n) (loc scale : ℝ) :
    (shapes ++ [loc, scale]).length = n + 2 ∧ (shapes ++ [loc, scale]).take n = shapes ∧
    (shapes ++ [loc, scale]).getD n 0 = loc ∧ (shapes ++ [loc, scale]).getD (n + 1) 1 = scale := by
  subst hn
  refine ⟨by simp, by simp, ?_, ?_⟩
  · simp [List.getD_eq_getElem?_getD]
  · rw [List.getD_eq_getElem?_getD, List.getElem?_append_right (by omega)]; simp

/-- **C132.** With the fixed location 0 and scale 1, `nnlf` is minus the sum of `logpdf` over the data, whichever full
turns the angles contain; it is infinite exactly if `logpdf` is infinite at one of them or the parameters are refused. -/
theorem C132_nnlf (D : Family (List ℝ)) {n : ℕ} {shapes : List ℝ} (hn : shapes.length = n) (xs : List ℝ) :
    (D.argcheck shapes → (∀ x ∈ xs, (distLogpdf D x shapes).isSome) →
      distNnlf D n (shapes ++ [0, 1]) xs = .ok (some (-(xs.map fun x => (distLogpdf D x shapes).getD 0).sum))) ∧
    (¬ D.argcheck shapes ∨ (∃ x ∈ xs, distLogpdf D x shapes = none) →
      distNnlf D n (shapes ++ [0, 1]) xs = .ok none) := by
  obtain ⟨l1, l2, l3, l4⟩ := nnlf_parts hn 0 1
  have hpdf : ∀ x, D.argcheck shapes → distPdf D x shapes = some (D.pdf (wrap2pi x) shapes) := by
    intro x ha
    unfold distPdf
    rw [if_neg (not_not.mpr ha), if_pos (wrap2pi_mem x)]
  have hlog : ∀ x, D.argcheck shapes → distLogpdf D x shapes
      = if D.pdf (wrap2pi x) shapes ≤ 0 then none else some (log (D.pdf (wrap2pi x) shapes)) := by
    intro x ha
    unfold distLogpdf
    rw [hpdf x ha]; rfl
  have hin : ¬ ∃ y ∈ xs.map fun x => (wrap2pi x - 0) / 1, ¬ (0 ≤ y ∧ y ≤ 2 * π) := by
    rintro ⟨y, hy, h⟩
    obtain ⟨x, -, rfl⟩ := List.mem_map.mp hy
    rw [sub_zero, div_one] at h
    exact h (wrap2pi_mem x)
  unfold distNnlf
  rw [if_neg (by omega), if_neg (by omega)]
  simp only [l2, l3, l4]
  constructor
  · intro ha hs
    have hpos : ∀ x ∈ xs, 0 < D.pdf (wrap2pi x) shapes := by
      intro x hx
      have := hs x hx
      rw [hlog x ha] at this
      by_contra hle
      rw [if_pos (not_lt.mp hle)] at this
      simp at this
    rw [if_neg (by rw [l2, l4]; rintro (h | h); exacts [h ha, by linarith]), if_neg hin, if_neg]
    · congr 3
      rw [List.map_map, log_one, mul_zero, add_zero]
      congr 1
      apply congrArg
      apply List.map_congr_left
      intro x hx
      rw [hlog x ha, if_neg (not_le.mpr (hpos x hx))]
      simp
    · rintro ⟨y, hy, h⟩
      obtain ⟨x, hx, rfl⟩ := List.mem_map.mp hy
      rw [sub_zero, div_one] at h
      exact absurd (hpos x hx) (not_lt.mpr h)
  · intro h
    by_cases ha : D.argcheck shapes
    · obtain ⟨x, hx, he⟩ := h.resolve_left (not_not.mpr ha)
      rw [hlog x ha] at he
      have hle : D.pdf (wrap2pi x) shapes ≤ 0 := by
        by_contra hc
        rw [if_neg hc] at he
        simp at he
      rw [if_neg (by rw [l2, l4]; rintro (h | h); exacts [h ha, by linarith]), if_neg hin, if_pos]
      exact ⟨_, List.mem_map.mpr ⟨x, hx, rfl⟩, by simpa using hle⟩
    · rw [if_pos (Or.inl (by rw [l2]; exact ha))]

/-- **C132 (negative).** Unlike the other methods `nnlf` accepts any location, and does not turn the distribution by it:
for a location above some (wrapped) angle of the data the answer is infinite, whatever the density. -/
theorem C132_nnlf_loc (D : Family (List ℝ)) {n : ℕ} {shapes : List ℝ} (hn : shapes.length = n) {xs : List ℝ} {loc x : ℝ}
    (hx : x ∈ xs) (hl : wrap2pi x < loc) : distNnlf D n (shapes ++ [loc, 1]) xs = .ok none := by
  obtain ⟨l1, l2, l3, l4⟩ := nnlf_parts hn loc 1
  unfold distNnlf
  rw [if_neg (by omega), if_neg (by omega)]
  simp only [l2, l3, l4]
  split_ifs with h1 h2 h3
  · rfl
  · rfl
  · rfl
  · exfalso
    apply h2
    refine ⟨_, List.mem_map.mpr ⟨x, hx, rfl⟩, fun h => ?_⟩
    have := h.1
    rw [div_one] at this
    linarith

/-- **C132 (negative).** `vonmises.nnlf` never returns a number: for every accepted direction and concentration and all
data it raises `TypeError`, because the class overrides a scipy hook with another signature. -/
theorem C132_vonmises_nnlf :
    (∀ theta xs v, vmNnlf theta xs ≠ .ok (some v)) ∧
    ∀ mu kappa : ℝ, 0 ≤ mu → mu ≤ 2 * π → 0 < kappa → ∀ xs, vmNnlf [mu, kappa, 0, 1] xs = .error .typeError := by
  constructor
  · intro theta xs v
    unfold vmNnlf
    split_ifs
    · simp
    · split
      · split_ifs <;> simp
      · simp
  · intro mu kappa h0 h1 h2 xs
    unfold vmNnlf
    rw [if_neg (by simp)]
    simp only
    rw [if_neg (by rintro (h | h); exacts [h ⟨⟨h0, h1⟩, h2⟩, by linarith]), if_neg]
    rintro ⟨y, hy, h⟩
    obtain ⟨x, -, rfl⟩ := List.mem_map.mp hy
    rw [sub_zero, div_one] at h
    exact h (wrap2pi_mem x)

/-- A uniform density on the circle as a family without shapes: `nnlf` of two angles, with location 0 and 1. -/
example :
    let D : Family (List ℝ) := ⟨fun l => l = [], fun _ _ => 1 / (2 * π), fun x _ => x / (2 * π), fun q _ => 2 * π * q⟩
    distNnlf D 0 [0, 1] [0, 2] = .ok (some (2 * log (2 * π))) ∧ distNnlf D 0 [1, 1] [0, 2] = .ok none := by
  intro D
  have hp := two_pi_pos
  constructor
  · have hl : ∀ x, distLogpdf D x [] = some (-log (2 * π)) := by
      intro x
      unfold distLogpdf distPdf
      rw [if_neg (by simp [D]), if_pos (wrap2pi_mem x)]
      simp only [D, Option.bind_some]
      rw [if_neg (not_le.mpr (by positivity)), one_div, log_inv]
    have := (C132_nnlf D (n := 0) (shapes := []) rfl [0, 2]).1 rfl (fun x _ => by rw [hl]; rfl)
    rw [List.nil_append] at this
    rw [this]
    simp [hl]; ring
  · exact C132_nnlf_loc D (n := 0) (shapes := []) rfl (x := 0) (by simp) (by rw [wrap2pi_zero]; norm_num)

/-! ## Entropy of the von Mises distribution -/

/-- **C76 (negative).** `entropy()` of the von Mises distribution increases with the concentration, while the entropy
decreases; they agree for at most one concentration. -/
theorem C76_entropy_increases :
    StrictMonoOn (fun kappa => vmEntropy 0 kappa) (Set.Ioi 0) ∧
    (∀ mu : ℝ, StrictAntiOn
      (fun kappa => -∫ x in (0 : ℝ)..(2 * π), vmPdf x mu kappa * log (vmPdf x mu kappa)) (Set.Ioi 0)) ∧
    ∀ mu k k' : ℝ, 0 < k → 0 < k' →
      vmEntropy mu k = -(∫ x in (0 : ℝ)..(2 * π), vmPdf x mu k * log (vmPdf x mu k)) →
      vmEntropy mu k' = -(∫ x in (0 : ℝ)..(2 * π), vmPdf x mu k' * log (vmPdf x mu k')) → k = k' := by
  have hm : StrictMonoOn (fun kappa => vmEntropy 0 kappa) (Set.Ioi 0) := by
    have hd : ∀ k : ℝ, k ≠ 0 → HasDerivAt (fun kappa => vmEntropy 0 kappa)
        (k * (1 - besselI 1 k / besselI 0 k / k - (besselI 1 k / besselI 0 k) ^ 2)) k := by
      intro k hk
      have h := (hasDerivAt_log_besselI k).neg.add ((hasDerivAt_id k).mul (hasDerivAt_bessel_ratio hk))
      refine (h.congr_deriv (by simp)).congr_of_eventuallyEq (Filter.Eventually.of_forall fun x => ?_)
      simp only [vmEntropy, Pi.add_apply, Pi.mul_apply, Pi.neg_apply, id]
      ring
    apply strictMonoOn_of_deriv_pos (convex_Ioi 0)
    · intro k hk
      exact (hd k (ne_of_gt hk)).continuousAt.continuousWithinAt
    · intro k hk
      rw [interior_Ioi] at hk
      rw [(hd k (ne_of_gt hk)).deriv]
      exact mul_pos hk (bessel_ratio_deriv_pos (ne_of_gt hk))
  have he : ∀ mu k : ℝ, -(∫ x in (0 : ℝ)..(2 * π), vmPdf x mu k * log (vmPdf x mu k)) = log (2 * π) - vmEntropy 0 k := by
    intro mu k
    have h1 := (C76_entropy (mu := mu) (kappa := k)).1
    have h2 : vmEntropy mu k = vmEntropy 0 k := rfl
    rw [h2] at h1
    linarith
  have ha : ∀ mu : ℝ, StrictAntiOn
      (fun kappa => -∫ x in (0 : ℝ)..(2 * π), vmPdf x mu kappa * log (vmPdf x mu kappa)) (Set.Ioi 0) := by
    intro mu k hk k' hk' hlt
    have := hm hk hk' hlt
    simp only [he] at this ⊢
    linarith
  refine ⟨hm, ha, fun mu k k' hk hk' h h' => ?_⟩
  rw [he, show vmEntropy mu k = vmEntropy 0 k from rfl] at h
  rw [he, show vmEntropy mu k' = vmEntropy 0 k' from rfl] at h'
  exact hm.injOn hk hk' (show vmEntropy 0 k = vmEntropy 0 k' by linarith)

end Verif
