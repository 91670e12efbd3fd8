import Verif.Model.DistJPSample
import Verif.Props.DistJPAsymC
import Verif.Props.DistJonesPewsey

/-! # Properties C102 and C108: the sampler of the Jones-Pewsey distribution -/

set_option autoImplicit false

namespace Verif

open Real MeasureTheory Verif.Spec

/-! ## The search for the envelope -/

private lemma envEvaluate_origin (ev : ℝ → ℝ) : ∀ (cs : List ℝ) (st : ℝ × Option ℝ),
    (envEvaluate ev st cs).1 = st.1 ∨ ∃ c ∈ cs, (envEvaluate ev st cs).1 = clip c (1 / 10 ^ 6) (10 ^ 4)
  | [], st => Or.inl rfl
  | c :: cs, st => by
    rw [envEvaluate_cons]
    rcases envEvaluate_origin ev cs (envEvaluate ev st [c]) with h | ⟨d, hd, h⟩
    · rw [h]
      unfold envEvaluate
      simp only [List.foldl_cons, List.foldl_nil]
      split_ifs
      · exact Or.inr ⟨c, List.mem_cons_self, rfl⟩
      · exact Or.inl rfl
    · exact Or.inr ⟨d, List.mem_cons_of_mem _ hd, h⟩

private lemma clip_le_max {c B : ℝ} (hc : c ≤ B) (hB : 1 / 10 ^ 6 ≤ B) : clip c (1 / 10 ^ 6) (10 ^ 4) ≤ B := by
  unfold clip
  exact (min_le_left _ _).trans (max_le hc hB)

private lemma span_le (ev : ℝ → ℝ) {st : ℝ × Option ℝ} {B : ℝ} (h : st.1 ≤ B) (hB : 1 / 10 ^ 6 ≤ B) :
    (envEvaluate ev st (envSpan st.1)).1 ≤ 3 / 2 * B := by
  rcases envEvaluate_origin ev (envSpan st.1) st with e | ⟨c, hc, e⟩
  · rw [e]; linarith
  · rw [e]
    unfold envSpan at hc
    obtain ⟨i, hi, rfl⟩ := List.mem_map.1 hc
    obtain ⟨m, hm, rfl⟩ : ∃ m : ℕ, m < 7 ∧ i = (m : ℝ) := by simpa using hi
    have hi6 : (m : ℝ) ≤ 6 := by exact_mod_cast Nat.le_of_lt_succ hm
    have hm0 : (0 : ℝ) ≤ m := by positivity
    have hB0 : 0 < B := lt_of_lt_of_le (by norm_num) hB
    refine clip_le_max (clip_le_max ?_ (by linarith)) (by linarith)
    rcases le_total 0 st.1 with hs | hs
    · have : (m : ℝ) * (st.1 / 6) ≤ 6 * (st.1 / 6) := mul_le_mul_of_nonneg_right hi6 (by positivity)
      linarith
    · have : (m : ℝ) * (st.1 / 6) ≤ 0 := mul_nonpos_of_nonneg_of_nonpos hm0 (by linarith)
      linarith

/-- The search does not go beyond `27/8` times the largest of its first candidates. -/
private lemma envOptimize_le (ev : ℝ → ℝ) {g : ℝ} (hg : 0 < g) : (envOptimize ev g).1 ≤ 27 / 8 * max (4 * g) 3 := by
  have h3 : (3 : ℝ) ≤ max (4 * g) 3 := le_max_right _ _
  have h4 : 4 * g ≤ max (4 * g) 3 := le_max_left _ _
  have hB : (1 : ℝ) / 10 ^ 6 ≤ max (4 * g) 3 := le_trans (by norm_num) h3
  have h0 : (envEvaluate ev (max g (1 / 10 ^ 6), none) (envPool g)).1 ≤ max (4 * g) 3 := by
    rcases envEvaluate_origin ev (envPool g) (max g (1 / 10 ^ 6), none) with e | ⟨c, hc, e⟩
    · rw [e]
      exact max_le (by linarith) hB
    · rw [e]
      unfold envPool at hc
      rw [List.mem_insertionSort, List.mem_dedup, List.mem_map] at hc
      obtain ⟨d, hd, rfl⟩ := hc
      have h106 : (1 : ℝ) / 10 ^ 6 ≤ 3 := by norm_num
      refine clip_le_max (clip_le_max ?_ hB) hB
      simp only [List.mem_cons, List.not_mem_nil, or_false] at hd
      rcases hd with rfl | rfl | rfl | rfl | rfl | rfl | rfl | rfl | rfl
      · linarith
      · exact max_le (by linarith) hB
      · linarith
      · exact max_le (by linarith) hB
      · linarith
      · linarith
      · linarith
      · exact max_le (by linarith) (by linarith)
      · exact max_le (by linarith) h3
  have h1 := span_le ev h0 hB
  have hB1 : (1 : ℝ) / 10 ^ 6 ≤ 3 / 2 * max (4 * g) 3 := by linarith
  have h2 := span_le ev h1 hB1
  have h5 := span_le ev h2 (by linarith)
  have e := envOptimize_eq (ev := ev) (g := g) rfl rfl rfl rfl
  rw [e]
  refine h5.trans (le_of_eq ?_)
  ring

/-! ## The ratio of target and proposal -/

/-- The logarithm of the shape at an angle with cosine `c`. -/
private noncomputable def lk (kappa psi c : ℝ) : ℝ := 1 / psi * log (cosh (kappa * psi) + sinh (kappa * psi) * c)

private lemma base_pos (A : ℝ) {c : ℝ} (h1 : -1 ≤ c) (h2 : c ≤ 1) : 0 < cosh A + sinh A * c :=
  lt_of_lt_of_le (exp_pos _) (jp_base_ge A c h1 h2)

private lemma lk_one {psi : ℝ} (kappa : ℝ) (hp : psi ≠ 0) : lk kappa psi 1 = kappa := by
  unfold lk
  rw [mul_one, cosh_add_sinh, log_exp]
  field_simp

private lemma lk_neg_one {psi : ℝ} (kappa : ℝ) (hp : psi ≠ 0) : lk kappa psi (-1) = -kappa := by
  unfold lk
  rw [mul_neg_one, ← sub_eq_add_neg, cosh_sub_sinh, log_exp]
  field_simp

private lemma lk_kernel {kappa psi : ℝ} (hp : jpPsiTol ≤ |psi|) (hA : |kappa * psi| ≤ 700) (phi : ℝ) :
    log (jpKernel phi kappa psi) = lk kappa psi (cos phi) := by
  rw [jpKernel_eq hp hA, log_rpow (base_pos _ (neg_one_le_cos _) (cos_le_one _))]
  rfl

/-- For negative `psi` the logarithm of the shape lies below its chord. -/
private lemma lk_neg {kappa psi c : ℝ} (hp : psi < 0) (h1 : -1 ≤ c) (h2 : c ≤ 1) : lk kappa psi c ≤ kappa * c := by
  have hconc : ((1 + c) / 2) • log (exp (kappa * psi)) + ((1 - c) / 2) • log (exp (-(kappa * psi)))
      ≤ log (((1 + c) / 2) • exp (kappa * psi) + ((1 - c) / 2) • exp (-(kappa * psi))) :=
    strictConcaveOn_log_Ioi.concaveOn.2 (exp_pos _) (exp_pos _) (by linarith) (by linarith) (by ring)
  simp only [smul_eq_mul, log_exp] at hconc
  have e : (1 + c) / 2 * exp (kappa * psi) + (1 - c) / 2 * exp (-(kappa * psi)) = cosh (kappa * psi) + sinh (kappa * psi) * c := by
    rw [cosh_eq, sinh_eq]; ring
  rw [e] at hconc
  unfold lk
  have h3 : kappa * psi * c ≤ log (cosh (kappa * psi) + sinh (kappa * psi) * c) := by linarith
  rw [one_div_mul_eq_div, div_le_iff_of_neg hp]
  linarith

private lemma logx {x : ℝ} (hx : 0 ≤ x) : x - x ^ 2 / 2 ≤ log (1 + x) := by
  have h := le_log_one_add_of_nonneg hx
  have : x - x ^ 2 / 2 ≤ 2 * x / (x + 2) := by
    rw [le_div_iff₀ (by linarith)]
    nlinarith [mul_nonneg hx (mul_nonneg hx hx)]
  linarith

/-- For positive `psi`: the log ratio anywhere exceeds its maximum over the grid by at most `k² psi step²/2`. -/
private lemma lk_pos {kappa psi k c : ℝ} (hk0 : 0 < kappa) (hp : 0 < psi) (hk : 0 < k) (h1 : -1 ≤ c) (h2 : c ≤ 1) :
    ∃ j, j < 2048 ∧ lk kappa psi c - k * c ≤ lk kappa psi (cos (jpaGrid 2048 j)) - k * cos (jpaGrid 2048 j)
      + k ^ 2 * psi * (2 * π / 2048) ^ 2 / 2 := by
  obtain ⟨A, hA⟩ : ∃ A, A = cosh (kappa * psi) := ⟨_, rfl⟩
  obtain ⟨B, hB⟩ : ∃ B, B = sinh (kappa * psi) := ⟨_, rfl⟩
  have hB0 : 0 < B := by rw [hB]; exact sinh_pos_iff.2 (by positivity)
  have hDpos : ∀ x, -1 ≤ x → x ≤ 1 → 0 < A + B * x := fun x a b => by rw [hA, hB]; exact base_pos _ a b
  have hlk : ∀ x, lk kappa psi x = 1 / psi * log (A + B * x) := fun x => by rw [hA, hB]; rfl
  have herr : 0 ≤ k ^ 2 * psi * (2 * π / 2048) ^ 2 / 2 := by positivity
  -- the tangent at a point of the interval
  have tang : ∀ x, -1 ≤ x → x ≤ 1 → lk kappa psi c ≤ lk kappa psi x + 1 / psi * (B * (c - x) / (A + B * x)) := by
    intro x a b
    rw [hlk, hlk, ← mul_add]
    refine mul_le_mul_of_nonneg_left ?_ (by positivity)
    have := log_le_sub_one_of_pos (div_pos (hDpos c h1 h2) (hDpos x a b))
    rw [log_div (hDpos c h1 h2).ne' (hDpos x a b).ne'] at this
    have e : (A + B * c) / (A + B * x) - 1 = B * (c - x) / (A + B * x) := by
      have := (hDpos x a b).ne'
      field_simp
      ring
    linarith
  have g0 : jpaGrid 2048 0 = 0 := by unfold jpaGrid; simp
  have g1024 : jpaGrid 2048 1024 = π := by unfold jpaGrid; push_cast; ring
  obtain ⟨c0, hc0⟩ : ∃ c0, c0 = (B / (k * psi) - A) / B := ⟨_, rfl⟩
  have hD0 : A + B * c0 = B / (k * psi) := by
    rw [hc0]; field_simp; ring
  rcases lt_or_ge 1 c0 with hgt | hle
  · refine ⟨0, by norm_num, ?_⟩
    rw [g0, cos_zero]
    have hd1 := hDpos 1 (by norm_num) le_rfl
    have ht := tang 1 (by norm_num) le_rfl
    have hq : k * psi ≤ B / (A + B * 1) := by
      rw [le_div_iff₀ hd1]
      have : A + B * 1 ≤ B / (k * psi) := by rw [← hD0]; nlinarith
      rw [le_div_iff₀ (by positivity)] at this
      linarith
    have : 1 / psi * (B * (c - 1) / (A + B * 1)) ≤ k * (c - 1) := by
      rw [show 1 / psi * (B * (c - 1) / (A + B * 1)) = (B / (A + B * 1)) * (c - 1) / psi by ring, div_le_iff₀ hp]
      have := mul_le_mul_of_nonpos_right hq (by linarith : c - 1 ≤ 0)
      linarith
    linarith
  rcases lt_or_ge c0 (-1) with hlt | hge
  · refine ⟨1024, by norm_num, ?_⟩
    rw [g1024, cos_pi]
    have hd1 := hDpos (-1) le_rfl (by norm_num)
    have ht := tang (-1) le_rfl (by norm_num)
    have hq : B / (A + B * -1) ≤ k * psi := by
      rw [div_le_iff₀ hd1]
      have : B / (k * psi) ≤ A + B * -1 := by rw [← hD0]; nlinarith
      rw [div_le_iff₀ (by positivity)] at this
      linarith
    have : 1 / psi * (B * (c - -1) / (A + B * -1)) ≤ k * (c - -1) := by
      rw [show 1 / psi * (B * (c - -1) / (A + B * -1)) = (B / (A + B * -1)) * (c - -1) / psi by ring, div_le_iff₀ hp]
      have := mul_le_mul_of_nonneg_right hq (by linarith : 0 ≤ c - -1)
      linarith
    linarith
  · have hstep : 0 < 2 * π / 2048 := by positivity
    have hphi0 := arccos_nonneg c0
    have hphi1 := arccos_le_pi c0
    obtain ⟨j, hj⟩ : ∃ j, j = ⌊arccos c0 / (2 * π / 2048)⌋₊ := ⟨_, rfl⟩
    have hj1 : (j : ℝ) ≤ arccos c0 / (2 * π / 2048) := by rw [hj]; exact Nat.floor_le (by positivity)
    have hj2 : arccos c0 / (2 * π / 2048) < j + 1 := by rw [hj]; exact Nat.lt_floor_add_one _
    rw [le_div_iff₀ hstep] at hj1
    rw [div_lt_iff₀ hstep] at hj2
    have hgj : jpaGrid 2048 j = j * (2 * π / 2048) := by unfold jpaGrid; push_cast; ring
    have hjlt : j < 2048 := by
      by_contra hcon
      have : (2048 : ℝ) ≤ j := by exact_mod_cast not_lt.1 hcon
      have := mul_le_mul_of_nonneg_right this hstep.le
      rw [show (2048 : ℝ) * (2 * π / 2048) = 2 * π by ring] at this
      linarith [pi_pos]
    refine ⟨j, hjlt, ?_⟩
    obtain ⟨x, hx⟩ : ∃ x, x = cos (jpaGrid 2048 j) := ⟨_, rfl⟩
    rw [← hx]
    have hx1 : x ≤ 1 := by rw [hx]; exact cos_le_one _
    have hx0 : c0 ≤ x := by
      rw [hx, hgj, ← cos_arccos hge hle]
      exact cos_le_cos_of_nonneg_of_le_pi (by positivity) hphi1 hj1
    have hd : x - c0 ≤ 2 * π / 2048 := by
      have h := abs_cos_sub_cos_le (jpaGrid 2048 j) (arccos c0)
      rw [cos_arccos hge hle, ← hx, hgj] at h
      have h' := (le_abs_self _).trans h
      rw [abs_sub_comm, abs_of_nonneg (by linarith)] at h'
      linarith
    have ht := tang c0 hge hle
    rw [hD0, show 1 / psi * (B * (c - c0) / (B / (k * psi))) = k * (c - c0) by field_simp] at ht
    have hlow : lk kappa psi c0 + k * (x - c0) - k ^ 2 * psi * (x - c0) ^ 2 / 2 ≤ lk kappa psi x := by
      rw [hlk, hlk]
      have hD0' := hDpos c0 hge hle
      have e : A + B * x = (A + B * c0) * (1 + k * psi * (x - c0)) := by
        rw [hD0]
        have : A = B / (k * psi) - B * c0 := by linarith
        rw [this]; field_simp; ring
      have hy : 0 ≤ k * psi * (x - c0) := mul_nonneg (by positivity) (by linarith)
      rw [e, log_mul hD0'.ne' (by linarith), mul_add]
      have := mul_le_mul_of_nonneg_left (logx hy) (one_div_nonneg.2 hp.le)
      have e2 : 1 / psi * (k * psi * (x - c0) - (k * psi * (x - c0)) ^ 2 / 2) = k * (x - c0) - k ^ 2 * psi * (x - c0) ^ 2 / 2 := by
        field_simp
      linarith
    have hsq : (x - c0) ^ 2 ≤ (2 * π / 2048) ^ 2 := pow_le_pow_left₀ (by linarith) hd 2
    have : k ^ 2 * psi * (x - c0) ^ 2 / 2 ≤ k ^ 2 * psi * (2 * π / 2048) ^ 2 / 2 := by
      have := mul_le_mul_of_nonneg_left hsq (show 0 ≤ k ^ 2 * psi by positivity)
      linarith
    linarith

/-! ## The envelope -/

private lemma share {r : ℝ} (hr : 0 ≤ r) (p : ℝ) [∀ u : ℝ, Decidable (u ≤ r)] :
    volume.real {u : ℝ | 0 ≤ u ∧ u < 1 ∧ (if u ≤ r then some p else none) ≠ none} = min 1 r := by
  by_cases h1 : r < 1
  · rw [show {u : ℝ | 0 ≤ u ∧ u < 1 ∧ (if u ≤ r then some p else none) ≠ none} = Set.Icc 0 r by
      ext u
      simp only [Set.mem_ofPred_eq, Set.mem_Icc]
      constructor
      · rintro ⟨a, b, c⟩
        refine ⟨a, ?_⟩
        by_contra hcon
        rw [if_neg hcon] at c; exact c rfl
      · rintro ⟨a, b⟩
        exact ⟨a, lt_of_le_of_lt b h1, by rw [if_pos b]; simp⟩, volume_real_Icc_of_le hr, min_eq_right h1.le, sub_zero]
  · rw [show {u : ℝ | 0 ≤ u ∧ u < 1 ∧ (if u ≤ r then some p else none) ≠ none} = Set.Ico 0 1 by
      ext u
      simp only [Set.mem_ofPred_eq, Set.mem_Ico]
      constructor
      · rintro ⟨a, b, c⟩; exact ⟨a, b⟩
      · rintro ⟨a, b⟩
        exact ⟨a, b, by rw [if_pos (by linarith [not_lt.1 h1])]; simp⟩, volume_real_Ico_of_le zero_le_one, min_eq_left (not_lt.1 h1), sub_zero]

/-- What the envelope gives: the range of its concentration, and a bound of the constant from below by the ratio at each angle of the grid. -/
private lemma envelope_facts (E : JPEnv) (hl : LpmvExact E.lpmv) {s : JP} (hm0 : 0 ≤ s.mu) (hm1 : s.mu ≤ 2 * π)
    (hgrid : ∀ j : ℕ, j < 2048 → RegularAngle (pymod (s.mu + j * (2 * π / 2048)) (2 * π))) (hk : 1 / 10 ^ 3 ≤ s.kappa)
    (hpsi : 1 / 10 ^ 6 ≤ |s.psi|) (hA : |s.kappa * s.psi| ≤ 700) {Z : ℝ} (hZ : Z = ∫ t in (0 : ℝ)..(2 * π), jpKernel (t - s.mu) s.kappa s.psi) :
    (1 / 10 ^ 6 ≤ (jpEnvelope E s).1 ∧ (jpEnvelope E s).1 ≤ 10 ^ 4) ∧
    (jpEnvelope E s).1 ≤ 27 / 8 * max (4 * max (jpEffectiveKappa s.kappa s.psi) (1 / 10 ^ 6)) 3 ∧ 0 < (jpEnvelope E s).2 ∧
    ∀ j : ℕ, j < 2048 → lk s.kappa s.psi (cos (jpaGrid 2048 j)) - (jpEnvelope E s).1 * cos (jpaGrid 2048 j) + log (2 * π * besselI 0 (jpEnvelope E s).1 / Z)
      + log (1 + 2 / 100) ≤ log (jpEnvelope E s).2 := by
  obtain ⟨ev, hev⟩ : ∃ ev, ev = envLogMax 2048 ⟨0, by simp⟩ (fun j => pymod (s.mu + jpaGrid 2048 j) (2 * π))
    (fun j => log (max ((distPdf (jonespewsey E) (pymod (s.mu + jpaGrid 2048 j) (2 * π)) s).getD 0) floatTiny)) s.mu := ⟨_, rfl⟩
  have henv : jpEnvelope E s = envOptimize ev (max (jpEffectiveKappa s.kappa s.psi) (1 / 10 ^ 6)) := by rw [hev]; rfl
  obtain ⟨hr, hM, -⟩ := envOptimize_spec ev (max (jpEffectiveKappa s.kappa s.psi) (1 / 10 ^ 6))
  have hle := envOptimize_le ev (g := max (jpEffectiveKappa s.kappa s.psi) (1 / 10 ^ 6)) (lt_of_lt_of_le (by norm_num) (le_max_right _ _))
  rw [← henv] at hr hM hle
  have hM0 : 0 < (jpEnvelope E s).2 := by rw [hM]; exact lt_of_lt_of_le (by norm_num) (le_max_right _ _)
  refine ⟨hr, hle, hM0, fun j hj => ?_⟩
  have hZ0 : 0 < Z := by rw [hZ]; exact jpKernel_mass_pos _ _ _
  have hI := besselI_zero_pos (jpEnvelope E s).1
  have hM' : ev (jpEnvelope E s).1 + log (1 + 2 / 100) ≤ log (jpEnvelope E s).2 := by
    rw [le_log_iff_exp_le hM0]
    exact (le_max_left _ _).trans (le_of_eq hM.symm)
  refine le_trans ?_ hM'
  refine add_le_add_left ?_ _
  have hgj : (j : ℝ) * (2 * π / 2048) = jpaGrid 2048 j := by unfold jpaGrid; push_cast; ring
  have hreg := hgrid j hj
  rw [hgj] at hreg
  have hpdf : distPdf (jonespewsey E) (pymod (s.mu + jpaGrid 2048 j) (2 * π)) s
      = some (jpKernel (pymod (s.mu + jpaGrid 2048 j) (2 * π) - s.mu) s.kappa s.psi / Z) := by
    rw [distPdf_regular (jonespewsey E) (show (jonespewsey E).argcheck s from ⟨⟨hm0, hm1⟩, le_trans (by norm_num) hk⟩) hreg, hZ]
    exact congrArg some (jpPdf_eq hl hk hA _)
  have hcos : cos (pymod (s.mu + jpaGrid 2048 j) (2 * π) - s.mu) = cos (jpaGrid 2048 j) := by
    obtain ⟨m, hm⟩ : ∃ m : ℤ, pymod (s.mu + jpaGrid 2048 j) (2 * π) = s.mu + jpaGrid 2048 j - m * (2 * π) := ⟨⌊(s.mu + jpaGrid 2048 j) / (2 * π)⌋, by unfold pymod; ring⟩
    rw [hm, show s.mu + jpaGrid 2048 j - m * (2 * π) - s.mu = jpaGrid 2048 j - m * (2 * π) by ring, cos_sub_int_mul_two_pi]
  have hsup := Finset.le_sup' (f := fun j => log (max ((distPdf (jonespewsey E) (pymod (s.mu + jpaGrid 2048 j) (2 * π)) s).getD 0) floatTiny)
      - logVonmisesPdf (pymod (s.mu + jpaGrid 2048 j) (2 * π)) s.mu (jpEnvelope E s).1) (Finset.mem_range.2 hj)
  have hsup' : log (max ((distPdf (jonespewsey E) (pymod (s.mu + jpaGrid 2048 j) (2 * π)) s).getD 0) floatTiny)
      - logVonmisesPdf (pymod (s.mu + jpaGrid 2048 j) (2 * π)) s.mu (jpEnvelope E s).1 ≤ ev (jpEnvelope E s).1 := by
    rw [hev]; exact hsup
  refine le_trans ?_ hsup'
  rw [hpdf, logVonmisesPdf_eq hr.1, Option.getD_some]
  have hker := jpKernel_pos (pymod (s.mu + jpaGrid 2048 j) (2 * π) - s.mu) s.kappa s.psi
  have h1 : log (jpKernel (pymod (s.mu + jpaGrid 2048 j) (2 * π) - s.mu) s.kappa s.psi / Z)
      ≤ log (max (jpKernel (pymod (s.mu + jpaGrid 2048 j) (2 * π) - s.mu) s.kappa s.psi / Z) floatTiny) :=
    log_le_log (div_pos hker hZ0) (le_max_left _ _)
  refine le_trans ?_ (sub_le_sub_right h1 _)
  unfold envDensity
  rw [log_div hker.ne' hZ0.ne', lk_kernel hpsi hA, hcos, log_div (exp_pos _).ne' (by positivity), log_exp, log_div (by positivity) hZ0.ne']
  linarith

private lemma log102 : 198 / 10000 ≤ log (1 + 2 / 100) := by
  have := le_log_one_add_of_nonneg (x := 2 / 100) (by norm_num)
  norm_num at this ⊢
  linarith

/-- The parameters for which the envelope is shown to lie above the target everywhere. -/
def JPSampled (s : JP) : Prop := s.psi < 0 ∨ (0 < s.psi ∧ s.psi ≤ 40 ∧ (1 / 92 ≤ s.psi ∨ s.kappa ^ 2 * s.psi ≤ 23))

private lemma eff_bounds {kappa psi : ℝ} (hk : 1 / 10 ^ 3 ≤ kappa) (hp : 1 / 10 ^ 6 ≤ |psi|) (hp0 : 0 < psi) :
    0 ≤ jpEffectiveKappa kappa psi ∧ jpEffectiveKappa kappa psi ≤ kappa ∧ jpEffectiveKappa kappa psi ≤ 1 / (2 * psi) := by
  have hk0 : 0 < kappa := lt_of_lt_of_le (by norm_num) hk
  unfold jpEffectiveKappa
  rw [if_neg (not_lt.2 (show jpPsiTol ≤ |psi| from hp))]
  simp only
  have h1 : exp (-2 * (kappa * psi)) < 1 := by
    rw [← exp_zero]
    exact exp_lt_exp.2 (by nlinarith [mul_pos hk0 hp0])
  have h2 := add_one_le_exp (-2 * (kappa * psi))
  have h3 := exp_pos (-2 * (kappa * psi))
  have hpos : 0 < (1 - exp (-2 * (kappa * psi))) / (2 * psi) := div_pos (by linarith) (by linarith)
  rw [if_neg (not_le.2 hpos)]
  refine ⟨hpos.le, ?_, ?_⟩
  · rw [div_le_iff₀ (by linarith)]; linarith
  · exact div_le_div_of_nonneg_right (by linarith) (by linarith)

private lemma sq_bound {s : JP} (hk : 1 / 10 ^ 3 ≤ s.kappa) (hpsi : 1 / 10 ^ 6 ≤ |s.psi|) (h0 : 0 < s.psi) (h40 : s.psi ≤ 40)
    (hc : 1 / 92 ≤ s.psi ∨ s.kappa ^ 2 * s.psi ≤ 23) {k : ℝ} (hk0 : 0 ≤ k) (hle : k ≤ 27 / 8 * max (4 * max (jpEffectiveKappa s.kappa s.psi) (1 / 10 ^ 6)) 3) :
    k ^ 2 * s.psi ≤ 4200 := by
  obtain ⟨e0, e1, e2⟩ := eff_bounds hk hpsi h0
  obtain ⟨g, hg⟩ : ∃ g, g = jpEffectiveKappa s.kappa s.psi := ⟨_, rfl⟩
  rw [← hg] at e0 e1 e2 hle
  have hgg : g ^ 2 * s.psi ≤ 23 := by
    rcases hc with hc | hc
    · have h1 : g ^ 2 ≤ (1 / (2 * s.psi)) ^ 2 := pow_le_pow_left₀ e0 e2 2
      have h2 := mul_le_mul_of_nonneg_right h1 h0.le
      refine h2.trans ?_
      rw [show (1 / (2 * s.psi)) ^ 2 * s.psi = 1 / (4 * s.psi) by field_simp; ring, div_le_iff₀ (by linarith)]
      linarith
    · exact (mul_le_mul_of_nonneg_right (pow_le_pow_left₀ e0 e1 2) h0.le).trans hc
  have h1 : k ^ 2 ≤ (27 / 8 * max (4 * max g (1 / 10 ^ 6)) 3) ^ 2 := pow_le_pow_left₀ hk0 hle 2
  refine (mul_le_mul_of_nonneg_right h1 h0.le).trans ?_
  rcases le_total (4 * max g (1 / 10 ^ 6)) 3 with hc | hc
  · rw [max_eq_right hc]; linarith
  · rw [max_eq_left hc]
    have hge : (1 : ℝ) / 10 ^ 6 ≤ g := by
      by_contra hcon
      rw [max_eq_right (not_le.1 hcon).le] at hc
      norm_num at hc
    rw [max_eq_left hge, show (27 / 8 * (4 * g)) ^ 2 * s.psi = 729 / 4 * (g ^ 2 * s.psi) by ring]
    linarith

/-- The envelope lies above the target at every angle, with something to spare. -/
private lemma envelope_above (E : JPEnv) (hl : LpmvExact E.lpmv) {s : JP} (hm0 : 0 ≤ s.mu) (hm1 : s.mu ≤ 2 * π)
    (hgrid : ∀ j : ℕ, j < 2048 → RegularAngle (pymod (s.mu + j * (2 * π / 2048)) (2 * π))) (hk : 1 / 10 ^ 3 ≤ s.kappa)
    (hpsi : 1 / 10 ^ 6 ≤ |s.psi|) (hA : |s.kappa * s.psi| ≤ 700) (hs : JPSampled s) {Z : ℝ} (hZ : Z = ∫ t in (0 : ℝ)..(2 * π), jpKernel (t - s.mu) s.kappa s.psi)
    {c : ℝ} (h1 : -1 ≤ c) (h2 : c ≤ 1) :
    lk s.kappa s.psi c - (jpEnvelope E s).1 * c + log (2 * π * besselI 0 (jpEnvelope E s).1 / Z) + 1 / 10 ^ 5 ≤ log (jpEnvelope E s).2 := by
  obtain ⟨hr, hle, hM0, hj⟩ := envelope_facts E hl hm0 hm1 hgrid hk hpsi hA hZ
  have hk0 : 0 < s.kappa := lt_of_lt_of_le (by norm_num) hk
  have hl2 := log102
  have g0 : jpaGrid 2048 0 = 0 := by unfold jpaGrid; simp
  have g1024 : jpaGrid 2048 1024 = π := by unfold jpaGrid; push_cast; ring
  have h105 : (1 : ℝ) / 10 ^ 5 ≤ 198 / 10000 := by norm_num
  rcases hs with hs | ⟨hp0, hp1, hp2⟩
  · have hup := lk_neg (kappa := s.kappa) hs h1 h2
    have j0 := hj 0 (by norm_num)
    have j1 := hj 1024 (by norm_num)
    rw [g0, cos_zero, lk_one _ hs.ne] at j0
    rw [g1024, cos_pi, lk_neg_one _ hs.ne] at j1
    rcases le_total (jpEnvelope E s).1 s.kappa with h | h
    · have := mul_le_mul_of_nonneg_left h2 (sub_nonneg.2 h)
      linarith
    · have := mul_le_mul_of_nonneg_left (neg_le.1 h1 : -c ≤ 1) (sub_nonneg.2 h)
      linarith
  · have hkk : 0 < (jpEnvelope E s).1 := lt_of_lt_of_le (by norm_num) hr.1
    obtain ⟨j, hj1, hj2⟩ := lk_pos hk0 hp0 hkk h1 h2
    have := hj j hj1
    have hb := sq_bound hk hpsi hp0 hp1 hp2 hkk.le hle
    have hst : (2 * π / 2048) ^ 2 ≤ 9413 / 10 ^ 9 := by
      have hp := pi_lt_d6
      have hp0 := pi_pos
      have : 2 * π / 2048 ≤ 306797 / 10 ^ 8 := by rw [div_le_iff₀ (by norm_num)]; norm_num at hp ⊢; linarith
      refine (pow_le_pow_left₀ (by positivity) this 2).trans (by norm_num)
    have herr : (jpEnvelope E s).1 ^ 2 * s.psi * (2 * π / 2048) ^ 2 / 2 ≤ 4200 * (9413 / 10 ^ 9) / 2 := by
      have := mul_le_mul hb hst (sq_nonneg _) (by norm_num)
      linarith
    norm_num at herr ⊢
    linarith

private lemma wrap_near {p : ℝ} (h0 : 0 ≤ p) (h1 : p ≤ 2 * π) : |wrap2pi p - p| ≤ 1 / 10 ^ 14 := by
  by_cases h : |p - 2 * π| ≤ wrapTol
  · rw [wrap2pi_close h, abs_sub_comm]
    exact h.trans wrapTol_lt.le
  · have h' := not_le.1 h
    rw [abs_of_nonpos (by linarith)] at h'
    rw [wrap2pi_self h0 (by linarith), sub_self, abs_zero]
    positivity

private lemma pdf_some (E : JPEnv) (hl : LpmvExact E.lpmv) {s : JP} (hm0 : 0 ≤ s.mu) (hm1 : s.mu ≤ 2 * π) (hk : 1 / 10 ^ 3 ≤ s.kappa)
    (hA : |s.kappa * s.psi| ≤ 700) (p : ℝ) : distPdf (jonespewsey E) p s
      = some (jpKernel (wrap2pi p - s.mu) s.kappa s.psi / ∫ t in (0 : ℝ)..(2 * π), jpKernel (t - s.mu) s.kappa s.psi) := by
  unfold distPdf
  rw [if_neg (not_not.2 (show (jonespewsey E).argcheck s from ⟨⟨hm0, hm1⟩, le_trans (by norm_num) hk⟩)), if_pos (wrap2pi_mem _)]
  exact congrArg some (jpPdf_eq hl hk hA _)

private lemma trial_share (E : JPEnv) {s : JP} {v : ℝ → ℝ} {p : ℝ} (hv : 0 < v p) (hM : 0 < (jpEnvelope E s).2)
    (ht : 0 ≤ (distPdf (jonespewsey E) p s).getD 0) :
    volume.real {u : ℝ | 0 ≤ u ∧ u < 1 ∧ jpTrial E v s p u ≠ none} = min 1 ((distPdf (jonespewsey E) p s).getD 0 / ((jpEnvelope E s).2 * v p)) := by
  unfold jpTrial
  simp only
  rw [if_pos hv]
  exact share (div_nonneg ht (by positivity)) p

/-! ## C102 -/

/-- **C102.** Jones-Pewsey, for a correct Legendre function, `kappa ≥ 1e-3`, `|psi| ≥ 1e-6` and `psi` negative, or `1/92 ≤ psi ≤ 40`, or
positive with `kappa² psi ≤ 23` (no angle of the grid may lie within `1e-14` below `2π`): the sampler is exact. An
accepted draw is its proposal; the density of the proposal times the share of uniform draws accepting it is a constant multiple
of `pdf`; so the accepted draws have the probabilities of `pdf`. -/
theorem C102_jonespewsey (E : JPEnv) (hl : LpmvExact E.lpmv) {s : JP} (hm0 : 0 ≤ s.mu) (hm1 : s.mu ≤ 2 * π)
    (hgrid : ∀ j : ℕ, j < 2048 → RegularAngle (pymod (s.mu + j * (2 * π / 2048)) (2 * π))) (hk : 1 / 10 ^ 3 ≤ s.kappa)
    (hpsi : 1 / 10 ^ 6 ≤ |s.psi|) (hA : |s.kappa * s.psi| ≤ 700) (hs : JPSampled s) :
    let v := envDensity s.mu (jpEnvelope E s).1
    let t := fun p => (distPdf (jonespewsey E) p s).getD 0
    let accept := fun p => volume.real {u : ℝ | 0 ≤ u ∧ u < 1 ∧ jpTrial E v s p u ≠ none}
    (∀ p u y, jpTrial E v s p u = some y → y = p) ∧
    (∃ c, 0 < c ∧ ∀ p, 0 ≤ p → p ≤ 2 * π → 0 < t p ∧ v p * accept p = c * t p) ∧
    ∀ x, 0 ≤ x → x ≤ 2 * π →
      (∫ p in (0 : ℝ)..x, v p * accept p) / (∫ p in (0 : ℝ)..(2 * π), v p * accept p) = (∫ p in (0 : ℝ)..x, t p) / ∫ p in (0 : ℝ)..(2 * π), t p := by
  intro v t accept
  obtain ⟨Z, hZ⟩ : ∃ Z, Z = ∫ t in (0 : ℝ)..(2 * π), jpKernel (t - s.mu) s.kappa s.psi := ⟨_, rfl⟩
  have hZ0 : 0 < Z := by rw [hZ]; exact jpKernel_mass_pos _ _ _
  obtain ⟨hr, -, hM0, -⟩ := envelope_facts E hl hm0 hm1 hgrid hk hpsi hA hZ
  have ht : ∀ p, t p = jpKernel (wrap2pi p - s.mu) s.kappa s.psi / Z := fun p => by
    show (distPdf (jonespewsey E) p s).getD 0 = _
    rw [pdf_some E hl hm0 hm1 hk hA, hZ]; rfl
  have ht0 : ∀ p, 0 < t p := fun p => by rw [ht]; exact div_pos (jpKernel_pos _ _ _) hZ0
  have hv0 : ∀ p, 0 < v p := fun p => envDensity_pos _ _ _
  have key : ∃ c, 0 < c ∧ ∀ p, 0 ≤ p → p ≤ 2 * π → 0 < t p ∧ v p * accept p = c * t p := by
    refine ⟨1 / (jpEnvelope E s).2, by positivity, fun p hp0 hp1 => ⟨ht0 p, ?_⟩⟩
    have hsh : accept p = min 1 (t p / ((jpEnvelope E s).2 * v p)) := trial_share E (hv0 p) hM0 (ht0 p).le
    have hle : t p / ((jpEnvelope E s).2 * v p) ≤ 1 := by
      rw [div_le_one (mul_pos hM0 (hv0 p)), ← log_le_log_iff (ht0 p) (mul_pos hM0 (hv0 p)), log_mul hM0.ne' (hv0 p).ne', ht]
      have hI := besselI_zero_pos (jpEnvelope E s).1
      have hab := envelope_above E hl hm0 hm1 hgrid hk hpsi hA hs hZ (neg_one_le_cos (wrap2pi p - s.mu)) (cos_le_one _)
      rw [log_div (jpKernel_pos _ _ _).ne' hZ0.ne', lk_kernel hpsi hA]
      show _ ≤ _ + log (exp ((jpEnvelope E s).1 * cos (p - s.mu)) / (2 * π * besselI 0 (jpEnvelope E s).1))
      rw [log_div (exp_pos _).ne' (by positivity), log_exp]
      rw [log_div (by positivity) hZ0.ne'] at hab
      have hn := abs_cos_sub_cos_le (wrap2pi p - s.mu) (p - s.mu)
      rw [show wrap2pi p - s.mu - (p - s.mu) = wrap2pi p - p by ring] at hn
      have hn2 := (le_abs_self _).trans (hn.trans (wrap_near hp0 hp1))
      have hkc : (jpEnvelope E s).1 * (cos (wrap2pi p - s.mu) - cos (p - s.mu)) ≤ 1 / 10 ^ 5 := by
        have hk0 : 0 ≤ (jpEnvelope E s).1 := le_trans (by norm_num) hr.1
        calc (jpEnvelope E s).1 * (cos (wrap2pi p - s.mu) - cos (p - s.mu)) ≤ (jpEnvelope E s).1 * (1 / 10 ^ 14) := mul_le_mul_of_nonneg_left hn2 hk0
          _ ≤ 10 ^ 4 * (1 / 10 ^ 14) := mul_le_mul_of_nonneg_right hr.2 (by norm_num)
          _ ≤ 1 / 10 ^ 5 := by norm_num
      linarith
    rw [hsh, min_eq_right hle]
    have := (hv0 p).ne'
    field_simp
  refine ⟨fun p u y h => ?_, key, fun x hx0 hx1 => ?_⟩
  · unfold jpTrial at h
    simp only at h
    split_ifs at h <;> exact (Option.some.inj h).symm
  · obtain ⟨c, hc, hct⟩ := key
    have e : ∀ x, 0 ≤ x → x ≤ 2 * π → ∫ p in (0 : ℝ)..x, v p * accept p = c * ∫ p in (0 : ℝ)..x, t p := by
      intro x hx0 hx1
      rw [← intervalIntegral.integral_const_mul]
      refine intervalIntegral.integral_congr fun p hp => ?_
      rw [Set.uIcc_of_le hx0] at hp
      exact (hct p hp.1 (hp.2.trans hx1)).2
    rw [e x hx0 hx1, e _ two_pi_pos.le le_rfl, mul_div_mul_left _ _ hc.ne']

/-- **C102.** Jones-Pewsey: a sample is the first accepted proposal. -/
theorem C102_jonespewsey_first (E : JPEnv) (v : ℝ → ℝ) {s : JP} (hk : 1 / 10 ^ 3 ≤ s.kappa) (hpsi : 1 / 10 ^ 6 ≤ |s.psi|) (u0 : ℝ) (vm : ℝ → ℝ → ℝ)
    (trials : List (ℝ × ℝ)) (y : ℝ) : jpRvs E v s u0 vm trials = some y ↔
      ∃ pre u post, trials = pre ++ (y, u) :: post ∧ jpTrial E v s y u = some y ∧ ∀ t ∈ pre, jpTrial E v s t.1 t.2 = none := by
  have hy : ∀ p u y, jpTrial E v s p u = some y → y = p := fun p u y h => by
    unfold jpTrial at h
    simp only at h
    split_ifs at h <;> exact (Option.some.inj h).symm
  unfold jpRvs
  rw [if_neg (not_lt.2 (show jpKappaTol ≤ s.kappa from hk)), if_neg (not_lt.2 (show jpPsiTol ≤ |s.psi| from hpsi)), List.findSome?_eq_some_iff]
  constructor
  · rintro ⟨pre, ⟨p, u⟩, post, h1, h2, h3⟩
    have := hy _ _ _ h2
    simp only at this
    subst this
    exact ⟨pre, u, post, h1, h2, h3⟩
  · rintro ⟨pre, u, post, h1, h2, h3⟩
    exact ⟨pre, (y, u), post, h1, h2, h3⟩

/-- **C102.** Jones-Pewsey in the limits: for `kappa < 1e-3` samples are uniform, as is the density; for `|psi| < 1e-6` they
are von Mises samples, and the density is the von Mises density. -/
theorem C102_jonespewsey_limits (E : JPEnv) {s : JP} (hm0 : 0 ≤ s.mu) (hm1 : s.mu ≤ 2 * π) (hk0 : 0 ≤ s.kappa) (v : ℝ → ℝ) (vm : ℝ → ℝ → ℝ)
    (trials : List (ℝ × ℝ)) :
    (s.kappa < 1 / 10 ^ 3 → ∀ x, 0 ≤ x → x ≤ 2 * π →
      volume.real {u : ℝ | 0 ≤ u ∧ u < 1 ∧ ∃ y, jpRvs E v s u vm trials = some y ∧ y ≤ x}
        = ∫ p in (0 : ℝ)..x, (distPdf (jonespewsey E) p s).getD 0) ∧
    (1 / 10 ^ 3 ≤ s.kappa → |s.psi| < 1 / 10 ^ 6 → (∀ u, jpRvs E v s u vm trials = some (vm s.mu s.kappa)) ∧
      ∀ p, RegularAngle p → distPdf (jonespewsey E) p s = some (envDensity s.mu s.kappa p)) := by
  have hpdf : ∀ p, distPdf (jonespewsey E) p s = some (jpPdf E.lpmv (wrap2pi p) s.mu s.kappa s.psi) := fun p => by
    unfold distPdf
    rw [if_neg (not_not.2 (show (jonespewsey E).argcheck s from ⟨⟨hm0, hm1⟩, hk0⟩)), if_pos (wrap2pi_mem _)]
    rfl
  refine ⟨fun hk x hx0 hx1 => ?_, fun hk hp => ⟨fun u => ?_, fun p hpr => ?_⟩⟩
  · have e : ∀ p, (distPdf (jonespewsey E) p s).getD 0 = 1 / (2 * π) := fun p => by
      rw [hpdf, Option.getD_some]
      unfold jpPdf
      rw [if_pos (by rw [abs_of_nonneg hk0]; exact hk)]
    simp only [e]
    rw [intervalIntegral.integral_const, smul_eq_mul, sub_zero]
    have hy : ∀ u, jpRvs E v s u vm trials = some (2 * π * u) := fun u => by
      unfold jpRvs; rw [if_pos (show s.kappa < jpKappaTol from hk)]
    have hpi := two_pi_pos
    have hiff : ∀ u : ℝ, (∃ y, jpRvs E v s u vm trials = some y ∧ y ≤ x) ↔ u ≤ x / (2 * π) := fun u => by
      rw [hy, le_div_iff₀ hpi]
      simp [mul_comm]
    simp only [hiff]
    rcases hx1.lt_or_eq with hlt | heq
    · rw [show {u : ℝ | 0 ≤ u ∧ u < 1 ∧ u ≤ x / (2 * π)} = Set.Icc 0 (x / (2 * π)) by
        ext u
        simp only [Set.mem_ofPred_eq, Set.mem_Icc]
        have : x / (2 * π) < 1 := by rw [div_lt_one hpi]; exact hlt
        constructor
        · rintro ⟨a, b, c⟩; exact ⟨a, c⟩
        · rintro ⟨a, b⟩; exact ⟨a, by linarith, b⟩, volume_real_Icc_of_le (by positivity)]
      ring
    · rw [show {u : ℝ | 0 ≤ u ∧ u < 1 ∧ u ≤ x / (2 * π)} = Set.Ico 0 1 by
        ext u
        simp only [Set.mem_ofPred_eq, Set.mem_Ico]
        have : x / (2 * π) = 1 := by rw [heq, div_self hpi.ne']
        constructor
        · rintro ⟨a, b, c⟩; exact ⟨a, b⟩
        · rintro ⟨a, b⟩; exact ⟨a, b, by linarith⟩, volume_real_Ico_of_le zero_le_one, heq, mul_one_div_cancel hpi.ne']
      ring
  · unfold jpRvs
    rw [if_neg (not_lt.2 (show jpKappaTol ≤ s.kappa from hk)), if_pos (show |s.psi| < jpPsiTol from hp)]
  · rw [hpdf, regular_wrap hpr]
    congr 1
    unfold jpPdf jpConst envDensity
    rw [if_neg (not_lt.2 (by rw [abs_of_nonneg hk0]; exact hk)), if_pos (show |s.psi| < jpPsiTol from hp),
      if_neg (not_lt.2 (show jpKappaTol ≤ s.kappa from hk)), if_pos (show |s.psi| < jpPsiTol from hp)]
    ring

/-! ## C108 -/

private lemma besselI_shift (a b : ℝ) : besselI 0 a ≤ exp |a - b| * besselI 0 b := by
  unfold besselI
  rw [mul_left_comm]
  refine mul_le_mul_of_nonneg_left ?_ (by positivity)
  rw [← intervalIntegral.integral_const_mul]
  refine intervalIntegral.integral_mono_on pi_pos.le (Continuous.intervalIntegrable (by fun_prop) _ _)
    (Continuous.intervalIntegrable (by fun_prop) _ _) fun t _ => ?_
  simp only [Nat.cast_zero, zero_mul, cos_zero, mul_one]
  rw [← exp_add]
  refine exp_le_exp.2 ?_
  have h1 : (a - b) * cos t ≤ |a - b| := by
    refine (le_abs_self _).trans ?_
    rw [abs_mul]
    exact mul_le_of_le_one_right (abs_nonneg _) (abs_cos_le_one t)
  linarith

/-- **C108.** Jones-Pewsey: the documentation calls the sampler "efficient across the parameter space". For every centre and every `kappa ≥ 1e-3`,
`psi` in the range of the floating-point formulas, the mean share of accepted proposals is at most the mass of the shape
`(cosh κψ + sinh κψ cos)^(1/ψ)` divided by `1.02·2π I₀(κ)`, … -/
theorem C108_jonespewsey (E : JPEnv) (hl : LpmvExact E.lpmv) {s : JP} (hm0 : 0 ≤ s.mu) (hm1 : s.mu ≤ 2 * π)
    (hgrid : ∀ j : ℕ, j < 2048 → RegularAngle (pymod (s.mu + j * (2 * π / 2048)) (2 * π))) (hk : 1 / 10 ^ 3 ≤ s.kappa)
    (hpsi : 1 / 10 ^ 6 ≤ |s.psi|) (hA : |s.kappa * s.psi| ≤ 700) :
    let v := envDensity s.mu (jpEnvelope E s).1
    let accept := fun p => volume.real {u : ℝ | 0 ≤ u ∧ u < 1 ∧ jpTrial E v s p u ≠ none}
    ∫ p in (0 : ℝ)..(2 * π - 1 / 10 ^ 14), v p * accept p
      ≤ (∫ p in (0 : ℝ)..(2 * π), jpShape s.kappa s.psi (p - s.mu)) / (102 / 100 * (2 * π * besselI 0 s.kappa)) := by
  intro v accept
  simp only [← jpShape_kernel (Or.inl hpsi) hA]
  obtain ⟨Z, hZ⟩ : ∃ Z, Z = ∫ t in (0 : ℝ)..(2 * π), jpKernel (t - s.mu) s.kappa s.psi := ⟨_, rfl⟩
  have hZ0 : 0 < Z := by rw [hZ]; exact jpKernel_mass_pos _ _ _
  obtain ⟨hr, -, hM0, hj⟩ := envelope_facts E hl hm0 hm1 hgrid hk hpsi hA hZ
  rw [← hZ]
  have hp0 : s.psi ≠ 0 := by
    rintro h
    rw [h, abs_zero] at hpsi
    norm_num at hpsi
  have hI := besselI_zero_pos (jpEnvelope E s).1
  have hI' := besselI_zero_pos s.kappa
  have hM : 102 / 100 * (2 * π * besselI 0 s.kappa) / Z ≤ (jpEnvelope E s).2 := by
    have g0 : jpaGrid 2048 0 = 0 := by unfold jpaGrid; simp
    have g1024 : jpaGrid 2048 1024 = π := by unfold jpaGrid; push_cast; ring
    have j0 := hj 0 (by norm_num)
    have j1 := hj 1024 (by norm_num)
    rw [g0, cos_zero, lk_one _ hp0] at j0
    rw [g1024, cos_pi, lk_neg_one _ hp0] at j1
    have hab : |s.kappa - (jpEnvelope E s).1| + log (2 * π * besselI 0 (jpEnvelope E s).1 / Z) + log (1 + 2 / 100) ≤ log (jpEnvelope E s).2 := by
      rcases abs_cases (s.kappa - (jpEnvelope E s).1) with ⟨h, -⟩ | ⟨h, -⟩ <;> rw [h] <;> linarith
    rw [← log_le_log_iff (by positivity) hM0]
    refine le_trans ?_ hab
    have hsh := besselI_shift s.kappa (jpEnvelope E s).1
    have h1 := log_le_log hI' hsh
    rw [log_mul (exp_pos _).ne' hI.ne', log_exp] at h1
    rw [log_div (by positivity) hZ0.ne', log_div (by positivity) hZ0.ne', log_mul (by norm_num) (by positivity), log_mul (by positivity) hI'.ne',
      log_mul (by positivity) hI.ne', show (1 : ℝ) + 2 / 100 = 102 / 100 by norm_num]
    linarith
  have hf := jp_isCircularDensity s.mu s.kappa s.psi
  rw [← hZ] at hf
  have hb : (0 : ℝ) ≤ 2 * π - 1 / 10 ^ 14 := by linarith [pi_gt_three, show (1 : ℝ) / 10 ^ 14 ≤ 1 by norm_num]
  have hcont : Continuous fun x => jpKernel (x - s.mu) s.kappa s.psi / Z :=
    ((jpKernel_continuous s.kappa s.psi).comp (continuous_id.sub continuous_const)).div_const _
  have hpos : ∀ x, 0 < jpKernel (x - s.mu) s.kappa s.psi / Z := fun x => div_pos (jpKernel_pos _ _ _) hZ0
  have hptw : ∀ p, 0 ≤ p → p ≤ 2 * π - 1 / 10 ^ 14 → v p * accept p ≤ 1 / (jpEnvelope E s).2 * (jpKernel (p - s.mu) s.kappa s.psi / Z) := by
    intro p h0 h1
    have hv := envDensity_pos s.mu (jpEnvelope E s).1 p
    have ht : (distPdf (jonespewsey E) p s).getD 0 = jpKernel (p - s.mu) s.kappa s.psi / Z := by
      rw [pdf_some E hl hm0 hm1 hk hA, regular_wrap ⟨h0, Or.inl h1⟩, ← hZ]; rfl
    have hsh : accept p = min 1 ((distPdf (jonespewsey E) p s).getD 0 / ((jpEnvelope E s).2 * v p)) :=
      trial_share E hv hM0 (by rw [ht]; exact (hpos p).le)
    rw [ht] at hsh
    rw [hsh]
    refine (mul_le_mul_of_nonneg_left (min_le_right _ _) hv.le).trans (le_of_eq ?_)
    have hv' : v p ≠ 0 := hv.ne'
    rw [div_mul_eq_div_div, mul_div_cancel₀ _ hv']
    ring
  have h1 : ∫ p in (0 : ℝ)..(2 * π - 1 / 10 ^ 14), v p * accept p
      ≤ ∫ p in (0 : ℝ)..(2 * π - 1 / 10 ^ 14), 1 / (jpEnvelope E s).2 * (jpKernel (p - s.mu) s.kappa s.psi / Z) := by
    by_cases hint : IntervalIntegrable (fun p => v p * accept p) volume 0 (2 * π - 1 / 10 ^ 14)
    · exact intervalIntegral.integral_mono_on hb hint ((hcont.const_mul _).intervalIntegrable _ _) fun p hp => hptw p hp.1 hp.2
    · rw [intervalIntegral.integral_undef hint]
      exact intervalIntegral.integral_nonneg hb fun p _ => mul_nonneg (by positivity) (hpos p).le
  refine h1.trans ?_
  rw [intervalIntegral.integral_const_mul]
  have h2 : ∫ p in (0 : ℝ)..(2 * π - 1 / 10 ^ 14), jpKernel (p - s.mu) s.kappa s.psi / Z ≤ 1 := by
    refine le_trans ?_ (le_of_eq hf.mass)
    exact intervalIntegral.integral_mono_interval le_rfl hb (by linarith [show (0 : ℝ) ≤ 1 / 10 ^ 14 by positivity])
      (Filter.Eventually.of_forall fun x => (hpos x).le) hf.integrable
  refine (mul_le_mul_of_nonneg_left h2 (by positivity)).trans ?_
  rw [mul_one, one_div_le hM0 (by positivity), one_div_div]
  exact hM

/-- **C108.** … which for `psi = -1` is `1/(1.02 I₀(κ))`. -/
theorem C108_jonespewsey_cauchy (E : JPEnv) (hl : LpmvExact E.lpmv) {mu kappa : ℝ} (hm0 : 0 ≤ mu) (hm1 : mu ≤ 2 * π)
    (hgrid : ∀ j : ℕ, j < 2048 → RegularAngle (pymod (mu + j * (2 * π / 2048)) (2 * π))) (hk : 1 / 10 ^ 3 ≤ kappa) (hk1 : kappa ≤ 700) :
    let s : JP := ⟨mu, kappa, -1⟩
    let v := envDensity mu (jpEnvelope E s).1
    ∫ p in (0 : ℝ)..(2 * π - 1 / 10 ^ 14), v p * volume.real {u : ℝ | 0 ≤ u ∧ u < 1 ∧ jpTrial E v s p u ≠ none} ≤ 1 / (102 / 100 * besselI 0 kappa) := by
  intro s v
  have hk0 : 0 < kappa := lt_of_lt_of_le (by norm_num) hk
  have hA : |s.kappa * s.psi| ≤ 700 := by
    show |kappa * -1| ≤ 700
    rw [mul_neg_one, abs_neg, abs_of_pos hk0]; exact hk1
  have hpsi : 1 / 10 ^ 6 ≤ |s.psi| := by show 1 / 10 ^ 6 ≤ |(-1 : ℝ)|; norm_num
  have h := C108_jonespewsey E hl (s := s) hm0 hm1 hgrid hk hpsi hA
  simp only [← jpShape_kernel (Or.inl hpsi) hA] at h
  have t0 : 0 < tanh (kappa / 2) := tanh_pos' (by linarith)
  have hZ : ∫ p in (0 : ℝ)..(2 * π), jpKernel (p - s.mu) s.kappa s.psi = 2 * π := by
    have e : ∀ p, jpKernel (p - s.mu) s.kappa s.psi = 2 * π * wcPdf p mu (tanh (kappa / 2)) := fun p => jp_wrapcauchy_kernel hk hk1 mu p
    simp only [e]
    rw [intervalIntegral.integral_const_mul, (wc_isCircularDensity mu t0.le (tanh_lt_one _)).mass, mul_one]
  rw [hZ] at h
  refine h.trans (le_of_eq ?_)
  have hI := besselI_zero_pos kappa
  show 2 * π / (102 / 100 * (2 * π * besselI 0 kappa)) = _
  field_simp

/-! ## Concrete cases -/

private lemma grid_zero (j : ℕ) (hj : j < 2048) : RegularAngle (pymod (0 + j * (2 * π / 2048)) (2 * π)) := by
  have hj' : (j : ℝ) ≤ 2047 := by exact_mod_cast Nat.le_of_lt_succ hj
  have hpi := pi_gt_three
  have h1 : (j : ℝ) * (2 * π / 2048) ≤ 2047 * (2 * π / 2048) := mul_le_mul_of_nonneg_right hj' (by positivity)
  have h0 : (0 : ℝ) ≤ j * (2 * π / 2048) := by positivity
  have h14 : (1 : ℝ) / 10 ^ 14 ≤ 1 / 1000 := by norm_num
  rw [zero_add, pymod_eq_self two_pi_pos h0 (by linarith)]
  exact ⟨h0, Or.inl (by linarith)⟩

example (E : JPEnv) (hl : LpmvExact E.lpmv) : ∃ c, 0 < c ∧ ∀ p, 0 ≤ p → p ≤ 2 * π →
    envDensity 0 (jpEnvelope E ⟨0, 3, 1 / 2⟩).1 p
        * volume.real {u : ℝ | 0 ≤ u ∧ u < 1 ∧ jpTrial E (envDensity 0 (jpEnvelope E ⟨0, 3, 1 / 2⟩).1) ⟨0, 3, 1 / 2⟩ p u ≠ none}
      = c * (distPdf (jonespewsey E) p ⟨0, 3, 1 / 2⟩).getD 0 := by
  obtain ⟨-, ⟨c, hc, h⟩, -⟩ := C102_jonespewsey E hl (s := ⟨0, 3, 1 / 2⟩) le_rfl two_pi_pos.le grid_zero (by norm_num)
    (by rw [abs_of_pos] <;> norm_num) (by rw [abs_of_pos] <;> norm_num) (Or.inr ⟨by norm_num, by norm_num, Or.inl (by norm_num)⟩)
  exact ⟨c, hc, fun p h0 h1 => (h p h0 h1).2⟩

/-- C108 for `kappa = 30`, `psi = -1`: on average fewer than one proposal in ten thousand million is accepted. -/
example (E : JPEnv) (hl : LpmvExact E.lpmv) :
    ∫ p in (0 : ℝ)..(2 * π - 1 / 10 ^ 14), envDensity 0 (jpEnvelope E ⟨0, 30, -1⟩).1 p
        * volume.real {u : ℝ | 0 ≤ u ∧ u < 1 ∧ jpTrial E (envDensity 0 (jpEnvelope E ⟨0, 30, -1⟩).1) ⟨0, 30, -1⟩ p u ≠ none} ≤ 1 / 10 ^ 10 := by
  refine (C108_jonespewsey_cauchy E hl le_rfl two_pi_pos.le grid_zero (by norm_num) (by norm_num)).trans ?_
  have hpi := pi_pos
  have hI : 10 ^ 10 ≤ besselI 0 30 := by
    have h1 : ∫ t in (0 : ℝ)..(1 / 2), exp 26 ≤ ∫ t in (0 : ℝ)..π, exp (30 * cos t) * cos ((0 : ℕ) * t) := by
      have hc : ∀ t : ℝ, cos ((0 : ℕ) * t) = 1 := fun t => by simp
      simp only [hc, mul_one]
      refine le_trans (intervalIntegral.integral_mono_on (by norm_num) (Continuous.intervalIntegrable (by fun_prop) _ _)
        (Continuous.intervalIntegrable (by fun_prop : Continuous fun t => exp (30 * cos t)) _ _) fun t ht => ?_)
        (intervalIntegral.integral_mono_interval le_rfl (by norm_num) (by linarith [pi_gt_three])
          (Filter.Eventually.of_forall fun x => (exp_pos _).le) (Continuous.intervalIntegrable (by fun_prop) _ _))
      refine exp_le_exp.2 ?_
      have h2 := one_sub_sq_div_two_le_cos (x := t)
      have h3 : t ^ 2 ≤ (1 / 2) ^ 2 := pow_le_pow_left₀ ht.1 ht.2 2
      norm_num at h3
      linarith
    rw [intervalIntegral.integral_const, smul_eq_mul] at h1
    have e26 : (160 : ℝ) * 10 ^ 9 ≤ exp 26 := by
      have e : exp 26 = exp 1 ^ 26 := by rw [← exp_nat_mul]; norm_num
      rw [e]
      refine le_trans ?_ (pow_le_pow_left₀ (by norm_num) (show (2.718 : ℝ) ≤ exp 1 by linarith [exp_one_gt_d9]) 26)
      norm_num
    unfold besselI
    rw [div_mul_eq_mul_div, one_mul, le_div_iff₀ hpi]
    have := pi_lt_d2
    norm_num at this e26 ⊢
    norm_num at h1
    linarith
  refine one_div_le_one_div_of_le (by norm_num) ?_
  linarith

end Verif
