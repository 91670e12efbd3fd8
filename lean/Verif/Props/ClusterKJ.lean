import Verif.Model.ClusterKJ
import Verif.Props.DistKatoJonesC
import Verif.Props.MixtureB

/-!
# C118: Kato-Jones mixtures (`MoKJ`)
-/

set_option autoImplicit false

namespace Verif.Props

open Real Verif Verif.Spec MeasureTheory

variable {n K : ℕ}

/-- Parameters strictly inside the family, with the margins of the mixture class. -/
def Inside (q : KJ) : Prop :=
  (0 ≤ q.mu ∧ q.mu < 2 * π) ∧ (1 / 10 ^ 4 ≤ q.gamma ∧ q.gamma ≤ 1 - 5 / 10 ^ 4) ∧
    (0 ≤ q.rho ∧ q.rho ≤ 1 - 5 / 10 ^ 4) ∧ (0 ≤ q.lam ∧ q.lam < 2 * π) ∧
    (q.rho * cos q.lam - q.gamma) ^ 2 + (q.rho * sin q.lam) ^ 2 < (1 - q.gamma) ^ 2

lemma mokj_limit (g : ℝ) : (if (1 - clip g (1 / 10 ^ 4) (1 - 5 / 10 ^ 4)) ^ 2 ≤ 0 then 1 - 5 / 10 ^ 4
    else clip g (1 / 10 ^ 4) (1 - 5 / 10 ^ 4)) = clip g (1 / 10 ^ 4) (1 - 5 / 10 ^ 4) := by
  have := clip_mem (v := g) (lo := 1 / 10 ^ 4) (hi := 1 - 5 / 10 ^ 4) (by norm_num)
  rw [if_neg]
  rw [not_le]
  exact pow_pos (by norm_num at this ⊢; linarith) 2

lemma clip_clip {v a b : ℝ} (ha : 0 ≤ a) (hab : a ≤ b) : clip (clip v 0 b) 0 a = clip v 0 a := by
  unfold clip
  rw [max_eq_left (le_min (le_max_right _ _) (ha.trans hab)), min_assoc, min_eq_right hab]

/-- The clean-up step always ends strictly inside the family. -/
lemma mokjRegularise_inside (q : KJ) : Inside (mokjRegularise q) := by
  unfold mokjRegularise
  simp only
  rw [mokj_limit]
  have hg := clip_mem (v := q.gamma) (lo := 1 / 10 ^ 4) (hi := 1 - 5 / 10 ^ 4) (by norm_num)
  have hr := clip_mem (v := q.rho) (lo := 0) (hi := 1 - 5 / 10 ^ 4) (by norm_num)
  obtain ⟨g, hgd⟩ : ∃ g, clip q.gamma (1 / 10 ^ 4) (1 - 5 / 10 ^ 4) = g := ⟨_, rfl⟩
  obtain ⟨r, hrd⟩ : ∃ r, clip q.rho 0 (1 - 5 / 10 ^ 4) = r := ⟨_, rfl⟩
  rw [hgd] at hg ⊢
  rw [hrd] at hr ⊢
  have hm : 0 ≤ pymod q.mu (2 * π) ∧ pymod q.mu (2 * π) < 2 * π := ⟨pymod_nonneg two_pi_pos _, pymod_lt two_pi_pos _⟩
  have hg0 : 0 ≤ g := by norm_num at hg; linarith
  split_ifs with h
  · refine ⟨hm, hg, clip_mem (by norm_num), ⟨pymod_nonneg two_pi_pos _, pymod_lt two_pi_pos _⟩, ?_⟩
    simp only
    obtain ⟨a, ha⟩ : ∃ a, kjAux g r (pymod q.lam (2 * π)) = a := ⟨_, rfl⟩
    rw [ha]
    obtain ⟨s, hs⟩ : ∃ s, clip a.1 0 (1 - 5 / 10 ^ 3) * (1 - 5 / 10 ^ 3) = s := ⟨_, rfl⟩
    have hs0 : 0 ≤ s ∧ s ≤ 1 - 5 / 10 ^ 3 := by
      have := clip_mem (v := a.1) (lo := 0) (hi := 1 - 5 / 10 ^ 3) (by norm_num)
      rw [← hs]
      norm_num at this ⊢
      constructor <;> linarith
    rw [hs]
    unfold kjFromAux
    simp only
    rw [kj_clip_self hg0 (by norm_num at hg ⊢; linarith), kj_clip_self hs0.1 (by norm_num at hs0 ⊢; linarith),
      clip_clip (by norm_num) (by norm_num),
      pymod_eq_self two_pi_pos (pymod_nonneg two_pi_pos (arctan2 _ _)) (pymod_lt two_pi_pos _)]
    refine lt_of_le_of_lt (kj_shrink (D := (1 - g) ^ 2 * s ^ 2) hg0 hg.2 (le_of_eq ?_)) ?_
    · nlinarith [sin_sq_add_cos_sq (pymod a.2 (2 * π))]
    · have h1 : 0 < (1 - g) ^ 2 := pow_pos (by norm_num at hg ⊢; linarith) 2
      have h2 : s ^ 2 < 1 := by norm_num at hs0; nlinarith
      nlinarith
  · refine ⟨hm, hg, hr, ⟨pymod_nonneg two_pi_pos _, pymod_lt two_pi_pos _⟩, ?_⟩
    unfold mokjConstraint at h
    simp only
    norm_num at h ⊢
    linarith

lemma kj_pos {gamma rho : ℝ} (h0 : 0 ≤ rho) (h1 : rho < 1) (hg0 : 0 ≤ gamma) (hg : gamma < 1)
    (mu lam x : ℝ) (hf : (rho * cos lam - gamma) ^ 2 + (rho * sin lam) ^ 2 < (1 - gamma) ^ 2) :
    0 < kjDensity mu gamma rho lam x := by
  have hd := kj_den_pos h0 h1 (x - mu - lam)
  unfold kjDensity
  refine div_pos ?_ (by positivity)
  rw [show ∀ a : ℝ, 1 + a / (1 + rho ^ 2 - 2 * rho * cos (x - mu - lam))
      = (1 * (1 + rho ^ 2 - 2 * rho * cos (x - mu - lam)) + a) / (1 + rho ^ 2 - 2 * rho * cos (x - mu - lam)) from
    fun a => by rw [add_div, one_mul, div_self hd.ne']]
  refine div_pos ?_ hd
  obtain ⟨d, hd'⟩ : ∃ d, x - mu = d := ⟨_, rfl⟩
  obtain ⟨A, hA⟩ : ∃ A, rho * cos lam - gamma = A := ⟨_, rfl⟩
  obtain ⟨B, hB⟩ : ∃ B, rho * sin lam = B := ⟨_, rfl⟩
  have hn : (1 * (1 + rho ^ 2 - 2 * rho * cos (d - lam)) + 2 * gamma * (cos d - rho * cos lam))
      = (cos d - A) ^ 2 + (sin d - B) ^ 2 - gamma ^ 2 := by
    rw [cos_sub, ← hA, ← hB]
    nlinarith [sin_sq_add_cos_sq d, sin_sq_add_cos_sq lam]
  rw [hd', hn]
  rw [hA, hB] at hf
  have hcs : (cos d * A + sin d * B) ^ 2 ≤ A ^ 2 + B ^ 2 := by
    nlinarith [sq_nonneg (cos d * B - sin d * A), sin_sq_add_cos_sq d]
  have hcs' : cos d * A + sin d * B ≤ sqrt (A ^ 2 + B ^ 2) := (le_abs_self _).trans (abs_le_sqrt hcs)
  obtain ⟨R, hR⟩ : ∃ R, sqrt (A ^ 2 + B ^ 2) = R := ⟨_, rfl⟩
  have hR2 : R ^ 2 = A ^ 2 + B ^ 2 := by rw [← hR]; exact sq_sqrt (by positivity)
  rw [hR] at hcs'
  have hRlt : R < 1 - gamma := by
    rw [← hR]
    exact (sqrt_lt' (by linarith)).2 hf
  nlinarith [sin_sq_add_cos_sq d]

/-- Parameters strictly inside the family have a positive density of mass one, which `pdf` evaluates. -/
lemma inside_density {q : KJ} (h : Inside q) :
    IsCircularDensity (kjDensity q.mu q.gamma q.rho q.lam) ∧ (∀ x, 0 < kjDensity q.mu q.gamma q.rho q.lam x) ∧
      ∀ x, RegularAngle x → distPdf katojones x q = some (kjDensity q.mu q.gamma q.rho q.lam x) := by
  obtain ⟨⟨a0, a1⟩, ⟨b0, b1⟩, ⟨c0, c1⟩, ⟨d0, d1⟩, e⟩ := h
  norm_num at b0 b1 c1
  have := C78_density a0 a1 (by linarith) (by linarith) c0 (by norm_num; linarith) d0 d1 e.le
  exact ⟨this.1, fun x => kj_pos c0 (by linarith) (by linarith) (by linarith) _ _ x e, this.2⟩

lemma mokjTry_inside (mle : KJ → Except PyErr KJ) : ∀ (l : List (Option KJ)) (q : KJ), mokjTry mle l = some q → Inside q
  | [], q, h => by simp [mokjTry] at h
  | none :: l, q, h => mokjTry_inside mle l q h
  | some st :: l, q, h => by
    simp only [mokjTry] at h
    cases hm : mle st with
    | error e => rw [hm] at h; exact mokjTry_inside mle l q h
    | ok est =>
      rw [hm] at h
      simp only at h
      split_ifs at h
      · exact mokjTry_inside mle l q h
      · cases h; exact mokjRegularise_inside est

lemma mokjMoments_inside {data : List ℝ} {w : Option (List ℝ)} {q : KJ} (h : mokjMoments data w = .ok (some q)) :
    Inside q := by
  unfold mokjMoments at h
  cases hm : kjFitMoments data w with
  | error e => rw [hm] at h; cases h
  | ok r =>
    rw [hm] at h
    simp only [Except.map, Except.ok.injEq, Option.map_eq_some_iff] at h
    obtain ⟨mu, -, rfl⟩ := h
    exact mokjRegularise_inside _

lemma mokjComp_inside {minimize : String → ((Fin 4 → ℝ) → ℝ) → (Fin 4 → ℝ) → MinResult 4} {minW : ℝ}
    {a w : Fin n → ℝ} {th q : KJ} (h : mokjComp minimize minW a w th = .ok (some q)) : Inside q := by
  unfold mokjComp at h
  cases hm : mokjMoments (List.ofFn a) (some (List.ofFn w)) with
  | error e => rw [hm] at h; cases h
  | ok m =>
    rw [hm] at h
    simp only [Except.map, Except.ok.injEq] at h
    split_ifs at h with hw
    · rw [h] at hm; exact mokjMoments_inside hm
    · split at h
      · rename_i est he
        cases h
        exact mokjTry_inside _ _ _ he
      · rw [h] at hm; exact mokjMoments_inside hm

/-- **C118.** Whatever the data, the initial clustering, the random draws and the answers of the optimiser: after
`fit` the weights are positive and sum to one, every component lies strictly inside the Kato-Jones family, so its
density is positive with total mass one and is what `pdf` returns; and so is the density of the mixture. -/
theorem C118_components {minimize : String → ((Fin 4 → ℝ) → ℝ) → (Fin 4 → ℝ) → MinResult 4} {minW : ℝ}
    {logpdf : KJ → ℝ → ℝ} {unit : String} {fullCycle : ℝ} {burnin nIters : ℕ} {threshold : ℝ}
    {prev : Bool × Option ℕ} {kmeans : Option (Fin n → Fin K)} {draws : List (Fin n → Fin K)} {X : Fin n → ℝ}
    {r : EMResult (MixState KJ K)} (hm : 0 < minW)
    (h : mokjFit minimize minW logpdf unit fullCycle burnin nIters threshold prev kmeans draws X = .ok (some r)) :
    ((∀ c, 0 < r.state.p c) ∧ ∑ c, r.state.p c = 1) ∧
    (∀ c, Inside (r.state.th c) ∧
      IsCircularDensity (kjDensity (r.state.th c).mu (r.state.th c).gamma (r.state.th c).rho (r.state.th c).lam) ∧
      (∀ x, 0 < kjDensity (r.state.th c).mu (r.state.th c).gamma (r.state.th c).rho (r.state.th c).lam x) ∧
      ∀ x, RegularAngle x → distPdf katojones x (r.state.th c)
        = some (kjDensity (r.state.th c).mu (r.state.th c).gamma (r.state.th c).rho (r.state.th c).lam x)) ∧
    IsCircularDensity (mixDensity (fun q x => kjDensity q.mu q.gamma q.rho q.lam x) r.state) ∧
    ∀ x, 0 < mixDensity (fun q x => kjDensity q.mu q.gamma q.rho q.lam x) r.state x := by
  have key : ((∀ c, 0 < r.state.p c) ∧ ∑ c, r.state.p c = 1) ∧ ∀ c, Inside (r.state.th c) := by
    unfold mokjFit at h
    split_ifs at h with hn
    cases hl : mokjLabels kmeans draws with
    | error e => rw [hl] at h; cases h
    | ok labels =>
      have hK : 0 < K := lt_of_le_of_lt (Nat.zero_le _) (labels ⟨0, Nat.pos_of_ne_zero hn⟩).isLt
      rw [hl] at h
      simp only [Except.bind] at h
      obtain ⟨a, ha⟩ : ∃ a : Fin n → ℝ, (fun i => toRad unit fullCycle (X i)) = a := ⟨_, rfl⟩
      rw [ha] at h
      cases hi : mokjInit a labels with
      | error e => rw [hi] at h; cases h
      | ok o =>
        rw [hi] at h
        simp only at h
        cases o with
        | none => cases h
        | some s0 =>
          simp only at h
          have h0 : ((∀ c, 0 < s0.p c) ∧ ∑ c, s0.p c = 1) ∧ ∀ c, Inside (s0.th c) := by
            unfold mokjInit at hi
            cases hok : allOk fun c => mokjMoments
                ((List.finRange n).filter (fun i => decide (labels i = c)) |>.map a) none with
            | error e => rw [hok] at hi; cases hi
            | ok ths =>
              rw [hok] at hi
              simp only [Except.map, Except.ok.injEq, Option.map_eq_some_iff] at hi
              obtain ⟨th, hth, rfl⟩ := hi
              refine ⟨⟨fun c => by positivity, ?_⟩, fun c => ?_⟩
              · have : (K : ℝ) ≠ 0 := by exact_mod_cast hK.ne'
                simp [this]
              · have h1 := allOk_eq.1 hok c
                rw [allSome_eq.1 hth c] at h1
                exact mokjMoments_inside h1
          have hstep : ∀ (s s' : MixState KJ K) (v : ℝ), mokjPass minimize minW logpdf a s = .ok (some (v, s')) →
              ((∀ c, 0 < s'.p c) ∧ ∑ c, s'.p c = 1) ∧ ∀ c, Inside (s'.th c) := by
            intro s s' v hs
            unfold mokjPass at hs
            simp only at hs
            cases hok : allOk fun c => mokjComp minimize minW a (resp (logGamma lwClip logpdf a s.p s.th) c) (s.th c) with
            | error e => rw [hok] at hs; cases hs
            | ok ths =>
              rw [hok] at hs
              simp only [Except.map, Except.ok.injEq, Option.map_eq_some_iff] at hs
              obtain ⟨th, hth, e⟩ := hs
              obtain ⟨-, rfl⟩ := Prod.mk.inj e
              refine ⟨⟨fun c => ?_, weightsClip_sum hK hm⟩, fun c => ?_⟩
              · have hp : 0 < ∑ d : Fin K, max (∑ i, resp (logGamma lwClip logpdf a s.p s.th) d i) minW :=
                  Finset.sum_pos (fun c _ => lt_max_of_lt_right hm) ⟨⟨0, hK⟩, Finset.mem_univ _⟩
                exact div_pos (lt_max_of_lt_right hm) hp
              · have h1 := allOk_eq.1 hok c
                rw [allSome_eq.1 hth c] at h1
                exact mokjComp_inside h1
          obtain ⟨⟨q, ⟨hq0, hq⟩, hr⟩, -⟩ := C59_loop _ burnin threshold prev nIters s0 h
          rw [hr]
          rcases Nat.eq_zero_or_pos r.nLL.length with hz | hp
          · rw [hz, hq0]; exact h0
          · rw [show r.nLL.length = r.nLL.length - 1 + 1 by omega]
            exact hstep _ _ _ (hq _ _ (List.getElem?_eq_getElem (by omega)))
  obtain ⟨⟨hp, hsum⟩, hin⟩ := key
  have hd := fun c => inside_density (hin c)
  have hK : 0 < K := by
    rcases Nat.eq_zero_or_pos K with rfl | h
    · simp at hsum
    · exact h
  have hpos : ∀ x, 0 < mixDensity (fun q x => kjDensity q.mu q.gamma q.rho q.lam x) r.state x := fun x =>
    Finset.sum_pos (fun c _ => mul_pos (hp c) ((hd c).2.1 x)) ⟨⟨0, hK⟩, Finset.mem_univ _⟩
  refine ⟨⟨hp, hsum⟩, fun c => ⟨hin c, hd c⟩, ⟨fun x _ _ => (hpos x).le, ?_, ?_⟩, hpos⟩
  · unfold mixDensity
    have := IntervalIntegrable.sum Finset.univ fun c _ => ((hd c).1.integrable).const_mul (r.state.p c)
    simpa only [Finset.sum_fn] using this
  · have := (C60_density (fun (q : KJ) x => kjDensity q.mu q.gamma q.rho q.lam x) r.state ⟨fun c => (hp c).le, hsum⟩).2.2.2 0
    rw [zero_add] at this
    exact this (fun c => (hd c).1.integrable) fun c => (hd c).1.mass

/-- **C118.** The clean-up step leaves parameters alone that are inside with the margin `5e-4` of the constraint. -/
theorem C118_unchanged {q : KJ} (h : Inside q)
    (hm : (q.rho * cos q.lam - q.gamma) ^ 2 + (q.rho * sin q.lam) ^ 2 < (1 - q.gamma) ^ 2 - 5 / 10 ^ 4) :
    mokjRegularise q = q := by
  obtain ⟨⟨a0, a1⟩, ⟨b0, b1⟩, ⟨c0, c1⟩, ⟨d0, d1⟩, -⟩ := h
  unfold mokjRegularise
  simp only
  rw [mokj_limit, kj_clip_self b0 b1, kj_clip_self c0 c1, pymod_eq_self two_pi_pos a0 a1, pymod_eq_self two_pi_pos d0 d1,
    if_neg]
  unfold mokjConstraint
  exact not_le.2 hm

/-- **C118.** For `gamma ≥ 0.978` there is no such margin, and the clean-up step changes every component: the second
trigonometric moment `gamma rho e^(i lam)` is moved towards `gamma²`, by the factor 0.995 each time it is applied, although the
parameters were admissible. (The only exception is `rho = gamma`, `lam = 0`, a wrapped Cauchy component, up to `1e-12`.) -/
theorem C118_shrunk {q : KJ} (hm0 : 0 ≤ q.mu) (hm1 : q.mu < 2 * π) (hg0 : 978 / 1000 ≤ q.gamma)
    (hg1 : q.gamma ≤ 1 - 5 / 10 ^ 4) (hr0 : 0 ≤ q.rho) (hr1 : q.rho ≤ 1 - 5 / 10 ^ 4) (hl0 : 0 ≤ q.lam) (hl1 : q.lam < 2 * π)
    (hlo : (1 - q.gamma) * (1 / 10 ^ 12) ≤ sqrt ((q.rho * cos q.lam - q.gamma) ^ 2 + (q.rho * sin q.lam) ^ 2))
    (hf : sqrt ((q.rho * cos q.lam - q.gamma) ^ 2 + (q.rho * sin q.lam) ^ 2) ≤ 995 / 1000 * (1 - q.gamma)) :
    ∃ rho lam, mokjRegularise q = ⟨q.mu, q.gamma, rho, lam⟩ ∧
      rho * cos lam - q.gamma = 995 / 1000 * (q.rho * cos q.lam - q.gamma) ∧
      rho * sin lam = 995 / 1000 * (q.rho * sin q.lam) := by
  have hgp : 0 < 1 - q.gamma := by norm_num at hg1; linarith
  obtain ⟨D, hD⟩ : ∃ D, sqrt ((q.rho * cos q.lam - q.gamma) ^ 2 + (q.rho * sin q.lam) ^ 2) = D := ⟨_, rfl⟩
  have hD0 : 0 ≤ D := by rw [← hD]; exact sqrt_nonneg _
  have hD2 : D ^ 2 = (q.rho * cos q.lam - q.gamma) ^ 2 + (q.rho * sin q.lam) ^ 2 := by
    rw [← hD]; exact sq_sqrt (by positivity)
  have hrp : 0 < q.rho := by
    rcases hr0.eq_or_lt with h | h
    · rw [← h] at hD2
      simp only [zero_mul, zero_sub] at hD2
      rw [hD] at hf
      nlinarith
    · exact h
  have hA := kjAux_value (by linarith : 0 ≤ q.gamma) (by norm_num at hg1 ⊢; linarith) hrp (by norm_num at hr1 ⊢; linarith) hl0 hl1
    hlo (by norm_num at hf ⊢; nlinarith)
  obtain ⟨p1, p2⟩ := kj_polar (q.rho * cos q.lam - q.gamma) (q.rho * sin q.lam)
  rw [hD] at hf hA hlo p1 p2
  obtain ⟨phi, hphi⟩ : ∃ phi, pymod (arctan2 (q.rho * sin q.lam) (q.rho * cos q.lam - q.gamma)) (2 * π) = phi := ⟨_, rfl⟩
  have hp0 : 0 ≤ phi ∧ phi < 2 * π := by rw [← hphi]; exact ⟨pymod_nonneg two_pi_pos _, pymod_lt two_pi_pos _⟩
  rw [hphi] at hA p1 p2
  have hs : D / (1 - q.gamma) ≤ 995 / 1000 := by rw [div_le_iff₀ hgp]; exact hf
  have hs0 : 0 ≤ D / (1 - q.gamma) := div_nonneg hD0 hgp.le
  obtain ⟨u, hu⟩ : ∃ u, q.gamma + 995 / 1000 * (q.rho * cos q.lam - q.gamma) = u := ⟨_, rfl⟩
  obtain ⟨v, hv⟩ : ∃ v, 995 / 1000 * (q.rho * sin q.lam) = v := ⟨_, rfl⟩
  have hW : sqrt (u ^ 2 + v ^ 2) ≤ 1 - 5 / 10 ^ 4 := by
    refine sqrt_le_iff.2 ⟨by norm_num, ?_⟩
    have e : u ^ 2 + v ^ 2 = (5 / 1000 * q.gamma) ^ 2 + 2 * (5 / 1000 * q.gamma) * (995 / 1000 * q.rho) * cos q.lam
        + (995 / 1000 * q.rho) ^ 2 := by
      rw [← hu, ← hv]; nlinarith [sin_sq_add_cos_sq q.lam]
    have h1 : (5 / 1000 * q.gamma) * (995 / 1000 * q.rho) * cos q.lam ≤ (5 / 1000 * q.gamma) * (995 / 1000 * q.rho) :=
      mul_le_of_le_one_right (by positivity) (cos_le_one _)
    have h2 : u ^ 2 + v ^ 2 ≤ (5 / 1000 * q.gamma + 995 / 1000 * q.rho) ^ 2 := by rw [e]; nlinarith
    refine h2.trans (pow_le_pow_left₀ (by positivity) ?_ 2)
    norm_num at hg1 hr1 ⊢
    linarith
  obtain ⟨w1, w2⟩ := kj_polar u v
  refine ⟨sqrt (u ^ 2 + v ^ 2), pymod (arctan2 v u) (2 * π), ?_, by rw [w1, ← hu]; ring, by rw [w2, ← hv]⟩
  unfold mokjRegularise
  simp only
  rw [mokj_limit, kj_clip_self (by norm_num; linarith) hg1, kj_clip_self hr0 hr1, pymod_eq_self two_pi_pos hm0 hm1,
    pymod_eq_self two_pi_pos hl0 hl1, if_pos, hA]
  · unfold kjFromAux
    simp only
    have hg9 : q.gamma ≤ 1 - 1 / 10 ^ 9 := by norm_num at hg1 ⊢; linarith
    rw [kj_clip_self hs0 (by norm_num; linarith),
      kj_clip_self (by linarith : 0 ≤ q.gamma) hg9,
      kj_clip_self (mul_nonneg hs0 (by norm_num)) (by norm_num; linarith), pymod_eq_self two_pi_pos hp0.1 hp0.2]
    have e1 : q.gamma + (1 - q.gamma) * (D / (1 - q.gamma) * (1 - 5 / 10 ^ 3)) * cos phi = u := by
      rw [← hu, ← p1, ← mul_assoc, mul_div_cancel₀ _ hgp.ne']; ring
    have e2 : (1 - q.gamma) * (D / (1 - q.gamma) * (1 - 5 / 10 ^ 3)) * sin phi = v := by
      rw [← hv, ← p2, ← mul_assoc, mul_div_cancel₀ _ hgp.ne']; ring
    rw [e1, e2, clip_clip (by norm_num) (by norm_num), kj_clip_self (sqrt_nonneg _) hW,
      pymod_eq_self two_pi_pos (pymod_nonneg two_pi_pos (arctan2 v u)) (pymod_lt two_pi_pos _)]
  · unfold mokjConstraint
    rw [← hD2]
    norm_num at hg1 ⊢
    nlinarith

/-- **C118.** For concentrated components the maximum likelihood step is never used: if the likelihood fits that
succeed all have `gamma ≥ 1 - 1/64` (mean resultant length 0.984), the component is the regularised moment estimate,
however good the likelihood estimates are. -/
theorem C118_mle_ignored {minimize : String → ((Fin 4 → ℝ) → ℝ) → (Fin 4 → ℝ) → MinResult 4} {minW : ℝ}
    {a w : Fin n → ℝ} {th : KJ}
    (h : ∀ st est, kjFitMle minimize (List.ofFn a) (some (List.ofFn w)) st "L-BFGS-B" = .ok est → 1 - 1 / 64 ≤ est.gamma) :
    mokjComp minimize minW a w th = mokjMoments (List.ofFn a) (some (List.ofFn w)) := by
  have hT : ∀ l, mokjTry (fun st => kjFitMle minimize (List.ofFn a) (some (List.ofFn w)) st "L-BFGS-B") l = none := by
    intro l
    induction l with
    | nil => rfl
    | cons o l ih =>
      cases o with
      | none => exact ih
      | some st =>
        simp only [mokjTry]
        cases hm : kjFitMle minimize (List.ofFn a) (some (List.ofFn w)) st "L-BFGS-B" with
        | error e => exact ih
        | ok est =>
          simp only
          rw [if_pos, ih]
          have hg := h st est hm
          have he : (mokjRegularise est).gamma = clip est.gamma (1 / 10 ^ 4) (1 - 5 / 10 ^ 4) := by
            unfold mokjRegularise
            simp only
            rw [mokj_limit]
            split_ifs <;> rfl
          have h1 : 1 - 1 / 64 ≤ (mokjRegularise est).gamma := by
            rw [he]; exact le_min (hg.trans (le_max_left _ _)) (by norm_num)
          have h2 := (mokjRegularise_inside est).2.1.2
          refine Or.inr (Or.inr (Or.inr ?_))
          have h3 : 0 ≤ mokjConstraint (mokjRegularise est).gamma (mokjRegularise est).rho (mokjRegularise est).lam := by
            unfold mokjConstraint; positivity
          refine le_trans ?_ h3
          norm_num at h2 ⊢
          nlinarith
  unfold mokjComp
  simp only [hT]
  cases mokjMoments (List.ofFn a) (some (List.ofFn w)) with
  | error e => rfl
  | ok m => simp [Except.map]

/-- C118: parameters at a positive distance from the constraint, and concentrated ones. -/
example : Inside ⟨1, 1 / 2, 1 / 4, 0⟩ ∧
    ((1 / 4 : ℝ) * cos 0 - 1 / 2) ^ 2 + (1 / 4 * sin 0) ^ 2 < (1 - 1 / 2) ^ 2 - 5 / 10 ^ 4 ∧
    (1 - (99 / 100 : ℝ)) * (1 / 10 ^ 12) ≤ sqrt ((995 / 1000 * cos 0 - 99 / 100) ^ 2 + (995 / 1000 * sin 0) ^ 2) ∧
    sqrt (((995 / 1000 : ℝ) * cos 0 - 99 / 100) ^ 2 + (995 / 1000 * sin 0) ^ 2) ≤ 995 / 1000 * (1 - 99 / 100) := by
  have hpi := pi_gt_three
  have e : sqrt (((995 / 1000 : ℝ) * cos 0 - 99 / 100) ^ 2 + (995 / 1000 * sin 0) ^ 2) = 5 / 1000 := by
    rw [cos_zero, sin_zero, show ((995 / 1000 : ℝ) * 1 - 99 / 100) ^ 2 + (995 / 1000 * 0) ^ 2 = (5 / 1000) ^ 2 by norm_num,
      sqrt_sq (by norm_num)]
  rw [e]
  refine ⟨⟨⟨by norm_num, by linarith⟩, by norm_num, by norm_num, ⟨le_rfl, by linarith⟩, ?_⟩, ?_, by norm_num, by norm_num⟩ <;>
    norm_num

private lemma moments_one (x : ℝ) (w : Option (List ℝ)) (hw : fitWeights 1 w = .ok [1]) :
    ∃ q, mokjMoments [x] w = .ok (some q) := by
  have hm : ‖moment [wrap2pi x] [1] 1‖ = 1 := by
    simp [moment, expSum]
  have hc : ∃ m r, circMeanAndR [wrap2pi x] [1] = some (some m, r) := by
    rw [circMeanAndR_eq, if_neg (by norm_num), if_neg (by rw [hm]; norm_num)]
    exact ⟨_, _, rfl⟩
  obtain ⟨m, r, hc⟩ := hc
  have : ∃ v, kjFitMoments [x] w = .ok v ∧ ∃ mu, v.1 = some mu := by
    unfold kjFitMoments
    simp only [List.map_cons, List.map_nil, List.length_singleton, one_ne_zero, if_false, hw, bind, Except.bind, hc]
    split_ifs <;> exact ⟨_, rfl, _, rfl⟩
  obtain ⟨v, hv, mu, hmu⟩ := this
  unfold mokjMoments
  rw [hv]
  simp only [Except.map, hmu, Option.map_some]
  exact ⟨_, rfl⟩

/-- C118: a fit that succeeds, of one component to one observation with an optimiser that always fails. -/
example (logpdf : KJ → ℝ → ℝ) (x : ℝ) :
    ∃ r, mokjFit (fun _ _ x0 => ⟨false, x0⟩) (1 / 10 ^ 6) logpdf "radian" 360 0 1 1 (false, none)
      (some fun _ : Fin 1 => (0 : Fin 1)) [] (fun _ => x) = .ok (some r) := by
  obtain ⟨q, hq⟩ := moments_one x none (by simp [fitWeights])
  obtain ⟨q', hq'⟩ := moments_one x (some [1]) (by norm_num [fitWeights, broadcastTo])
  have hl : mokjLabels (some fun _ : Fin 1 => (0 : Fin 1)) [] = .ok fun _ => 0 := by
    unfold mokjLabels
    rw [if_neg (by norm_num)]
    have : decide (∀ c : Fin 1, ∃ i : Fin 1, (fun _ : Fin 1 => (0 : Fin 1)) i = c) = true :=
      decide_eq_true fun c => ⟨0, Subsingleton.elim _ _⟩
    simp only [Option.filter, this, if_true]
  have hf : (List.finRange 1).filter (fun i => decide ((fun _ : Fin 1 => (0 : Fin 1)) i = 0)) = [0] := by decide
  have hi : mokjInit (fun _ : Fin 1 => x) (fun _ : Fin 1 => (0 : Fin 1)) = .ok (some ⟨fun _ => 1, fun _ => q⟩) := by
    unfold mokjInit
    have : (allOk fun c : Fin 1 => mokjMoments
        ((List.finRange 1).filter (fun i => decide ((fun _ : Fin 1 => (0 : Fin 1)) i = c)) |>.map fun _ => x) none)
        = .ok fun _ => some q := by
      refine allOk_eq.2 fun c => ?_
      rw [Subsingleton.elim c 0, hf]
      exact hq
    rw [this]
    simp only [Except.map]
    rw [(allSome_eq (g := fun _ => q)).2 fun c => rfl]
    simp
  have hp : ∃ v s, mokjPass (fun _ _ x0 => ⟨false, x0⟩) (1 / 10 ^ 6) logpdf (fun _ : Fin 1 => x)
      (⟨fun _ => 1, fun _ => q⟩ : MixState KJ 1) = .ok (some (v, s)) := by
    have hr : ∀ c, resp (logGamma lwClip logpdf (fun _ : Fin 1 => x) (fun _ : Fin 1 => (1 : ℝ)) fun _ => q) c = fun _ => 1 := by
      intro c
      funext i
      have := resp_sum (logGamma lwClip logpdf (fun _ : Fin 1 => x) (fun _ : Fin 1 => (1 : ℝ)) fun _ => q) Nat.one_pos i
      rw [Subsingleton.elim c 0]
      simpa using this
    have hT : ∀ l, mokjTry (fun st => kjFitMle (fun _ _ x0 => ⟨false, x0⟩) [x] (some [1]) st "L-BFGS-B") l = none := by
      intro l
      induction l with
      | nil => rfl
      | cons o l ih =>
        cases o with
        | none => exact ih
        | some st =>
          simp only [mokjTry]
          have : kjFitMle (fun _ _ x0 => ⟨false, x0⟩) [x] (some [1]) st "L-BFGS-B" = .error .runtimeError := by
            unfold kjFitMle
            norm_num [fitWeights, broadcastTo, bind, Except.bind]
          rw [this]
          exact ih
    have hc : mokjComp (fun _ _ x0 => ⟨false, x0⟩) (1 / 10 ^ 6) (fun _ : Fin 1 => x) (fun _ => 1) q = .ok (some q') := by
      unfold mokjComp
      rw [show List.ofFn (fun _ : Fin 1 => x) = [x] by simp, show List.ofFn (fun _ : Fin 1 => (1 : ℝ)) = [1] by simp, hq']
      simp only [Except.map, hT]
      simp
    unfold mokjPass
    simp only [hr, hc]
    rw [(allOk_eq (g := fun _ => some q')).2 fun c => rfl]
    simp only [Except.map]
    rw [(allSome_eq (g := fun _ => q')).2 fun c => rfl]
    exact ⟨_, _, rfl⟩
  obtain ⟨v, s, hp⟩ := hp
  refine ⟨⟨s, [v], false, none⟩, ?_⟩
  unfold mokjFit
  rw [if_neg (by norm_num), hl]
  simp only [Except.bind, toRad, if_true, hi, emFit, emLoop, hp]
  simp

end Verif.Props
