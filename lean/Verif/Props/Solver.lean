import Verif.Model.Solver
import Verif.Lemmas.Distn

/-! # Property C82: bracketed quantile solvers -/

set_option autoImplicit false

namespace Verif

open Real

/-- What the solver guarantees for an angle `theta` returned for the probability `q`: either the cdf at
it is within `1e-12` of `q`, or it is the midpoint of a bracket of width at most `w` that contains the
quantile: at its lower end (unless that is 0) the cdf is at most `q`, at its upper end (unless that is
`2π`) it exceeds `q`. -/
def SolvesQuantile (F : ℝ → ℝ) (q w theta : ℝ) : Prop :=
  (0 ≤ theta ∧ theta < 2 * π) ∧
  (|F theta - q| ≤ 1 / 10 ^ 12 ∨
    ∃ L H, 0 ≤ L ∧ L ≤ H ∧ H ≤ 2 * π ∧ H - L ≤ w ∧ theta = (L + H) / 2 ∧
      (L = 0 ∨ F L ≤ q) ∧ (H = 2 * π ∨ q < F H))

/-- The invariant of an entry. -/
structure BrInv (F : ℝ → ℝ) (s : Br) : Prop where
  l0 : 0 ≤ s.L
  lt : s.L ≤ s.theta
  tH : s.theta ≤ s.H
  t2 : s.theta < 2 * π
  l2 : s.L < 2 * π
  h2 : s.H ≤ 2 * π
  fl : s.L = 0 ∨ F s.L ≤ s.q
  fh : s.H = 2 * π ∨ s.q < F s.H

theorem BrInv.update {F : ℝ → ℝ} {s : Br} (h : BrInv F s) : BrInv F (s.update F) := by
  obtain ⟨a, b, c, d, e, f, g, i⟩ := h
  unfold Br.update
  by_cases hd : F s.theta - s.q ≤ 0
  · have hd' : ¬ 0 < F s.theta - s.q := not_lt.mpr hd
    constructor <;> simp only [if_pos hd, if_neg hd'] <;> try linarith
    · exact Or.inr (by linarith)
    · exact i
  · have hd' : 0 < F s.theta - s.q := not_le.mp hd
    constructor <;> simp only [if_neg hd, if_pos hd'] <;> try linarith
    · exact g
    · exact Or.inr (by linarith)

theorem BrInv.move {F f post : ℝ → ℝ} (hpost : ∀ x, 0 ≤ x → x < 2 * π → post x = x) {s : Br}
    (h : BrInv F s) : BrInv F (s.move F f post) := by
  obtain ⟨a, b, c, d, e, f', g, i⟩ := h
  unfold Br.move
  simp only
  split_ifs with hc
  · have hmid : post (1 / 2 * (s.L + s.H)) = 1 / 2 * (s.L + s.H) :=
      hpost _ (by linarith) (by linarith)
    constructor <;> simp only [hmid] <;> first | linarith | assumption
  · push Not at hc
    have hn := hpost (s.theta - clip ((F s.theta - s.q) / max (f s.theta) (1 / 10 ^ 15)) (-π) π)
      (by linarith [hc.1]) (by linarith [hc.2])
    constructor <;> simp only [hn] <;> first | linarith [hc.1, hc.2] | assumption

theorem brUpdate_q (F : ℝ → ℝ) (s : Br) : (s.update F).q = s.q := rfl
theorem brMove_q (F f post : ℝ → ℝ) (s : Br) : (s.move F f post).q = s.q := rfl

theorem brNewton_inv {F f post : ℝ → ℝ} (hpost : ∀ x, 0 ≤ x → x < 2 * π → post x = x) (k : ℕ)
    (st : List Br) (h : ∀ s ∈ st, BrInv F s) :
    (∀ s ∈ brNewton F f post k st, BrInv F s) ∧
      (brNewton F f post k st).map Br.q = st.map Br.q := by
  induction k generalizing st with
  | zero => exact ⟨h, rfl⟩
  | succ k ih =>
    have h1 : ∀ s ∈ st.map (Br.update F), BrInv F s := by
      intro s hs
      obtain ⟨s', hs', rfl⟩ := List.mem_map.mp hs
      exact (h s' hs').update
    have hq : (st.map (Br.update F)).map Br.q = st.map Br.q := by
      rw [List.map_map]; rfl
    unfold brNewton
    simp only
    split_ifs with hc
    · exact ⟨h1, hq⟩
    · have h2 : ∀ s ∈ (st.map (Br.update F)).map (Br.move F f post), BrInv F s := by
        intro s hs
        obtain ⟨s', hs', rfl⟩ := List.mem_map.mp hs
        exact (h1 s' hs').move hpost
      obtain ⟨p1, p2⟩ := ih _ h2
      refine ⟨p1, p2.trans ?_⟩
      rw [List.map_map, List.map_map]; rfl

theorem wnNewton_inv {F f post : ℝ → ℝ} (hpost : ∀ x, 0 ≤ x → x < 2 * π → post x = x) (k : ℕ)
    (st : List Br) (h : ∀ s ∈ st, BrInv F s) :
    (∀ s ∈ wnNewton F f post k st, BrInv F s) ∧
      (wnNewton F f post k st).map Br.q = st.map Br.q := by
  have hu : ∀ st : List Br, (∀ s ∈ st, BrInv F s) → ∀ s ∈ st.map (Br.update F), BrInv F s := by
    intro st h s hs
    obtain ⟨s', hs', rfl⟩ := List.mem_map.mp hs
    exact (h s' hs').update
  have huq : ∀ st : List Br, (st.map (Br.update F)).map Br.q = st.map Br.q := by
    intro st; rw [List.map_map]; rfl
  induction k generalizing st with
  | zero => exact ⟨hu st h, huq st⟩
  | succ k ih =>
    have h1 := hu st h
    unfold wnNewton
    simp only
    split_ifs with hc
    · exact ⟨hu _ h1, (huq _).trans (huq st)⟩
    · have h2 : ∀ s ∈ (st.map (Br.update F)).map (Br.move F f post), BrInv F s := by
        intro s hs
        obtain ⟨s', hs', rfl⟩ := List.mem_map.mp hs
        exact (h1 s' hs').move hpost
      obtain ⟨p1, p2⟩ := ih _ h2
      refine ⟨p1, p2.trans ?_⟩
      rw [List.map_map, List.map_map]; rfl

theorem brBisect_spec {F : ℝ → ℝ} {q : ℝ} (k : ℕ) {L H : ℝ} (h0 : 0 ≤ L) (h1 : L ≤ H)
    (h2 : H ≤ 2 * π) (hl2 : L < 2 * π) (hl : L = 0 ∨ F L ≤ q) (hh : H = 2 * π ∨ q < F H) :
    SolvesQuantile F q ((H - L) / 2 ^ k) (brBisect F q k L H) := by
  induction k generalizing L H with
  | zero =>
    refine ⟨⟨by unfold brBisect; linarith, by unfold brBisect; linarith⟩, Or.inr ⟨L, H, h0, h1, h2, ?_, ?_, hl, hh⟩⟩
    · simp
    · unfold brBisect; ring
  | succ k ih =>
    unfold brBisect
    simp only
    split_ifs with hc hd
    · have := ih (L := L) (H := 1 / 2 * (L + H)) h0 (by linarith) (by linarith) hl2 hl
        (Or.inr (by linarith))
      have e : (1 / 2 * (L + H) - L) / 2 ^ k = (H - L) / 2 ^ (k + 1) := by
        rw [pow_succ]; field_simp; ring
      rwa [e] at this
    · have := ih (L := 1 / 2 * (L + H)) (H := H) (by linarith) (by linarith) h2 (by linarith)
        (Or.inr (by linarith [not_lt.mp hd])) hh
      have e : (H - 1 / 2 * (L + H)) / 2 ^ k = (H - L) / 2 ^ (k + 1) := by
        rw [pow_succ]; field_simp; ring
      rwa [e] at this
    · exact ⟨⟨by linarith, by linarith⟩, Or.inl (not_lt.mp hc)⟩

theorem SolvesQuantile.mono {F : ℝ → ℝ} {q w w' theta : ℝ} (h : SolvesQuantile F q w theta)
    (hw : w ≤ w') : SolvesQuantile F q w' theta := by
  obtain ⟨a, b | ⟨L, H, p1, p2, p3, p4, p5⟩⟩ := h
  · exact ⟨a, Or.inl b⟩
  · exact ⟨a, Or.inr ⟨L, H, p1, p2, p3, p4.trans hw, p5⟩⟩

theorem solve_list {F : ℝ → ℝ} {w : ℝ} (res : List Br) (fin : Br → ℝ) (qs : List ℝ)
    (hq : res.map Br.q = qs) (h : ∀ s ∈ res, SolvesQuantile F s.q w (fin s)) :
    (res.map fin).length = qs.length ∧
    ∀ (i : ℕ) (q theta : ℝ), qs[i]? = some q → (res.map fin)[i]? = some theta →
      SolvesQuantile F q w theta := by
  subst hq
  refine ⟨by simp, ?_⟩
  intro i q theta h1 h2
  rw [List.getElem?_map, Option.map_eq_some_iff] at h1 h2
  obtain ⟨s, hs, rfl⟩ := h1
  obtain ⟨s', hs', rfl⟩ := h2
  rw [hs] at hs'
  cases hs'
  exact h s (List.mem_of_getElem? hs)

/-- **C82.** For every function `F` used as cdf, every density `f` used for the Newton steps, any
number of rounds, every array of probabilities and all starting angles in `[0, 2π)`: each returned
angle solves its quantile equation, with a bracket of width `2π/2^b` after `b` bisection rounds. This is
the solver of the von Mises and Jones-Pewsey families. -/
theorem C82_solver (F f post : ℝ → ℝ) (hpost : ∀ x, 0 ≤ x → x < 2 * π → post x = x) (a b : ℕ)
    (init : List (ℝ × ℝ)) (hinit : ∀ p ∈ init, 0 ≤ p.2 ∧ p.2 < 2 * π) :
    (brSolve F f post a b init).length = init.length ∧
    ∀ (i : ℕ) (q theta0 theta : ℝ), init[i]? = some (q, theta0) →
      (brSolve F f post a b init)[i]? = some theta → SolvesQuantile F q (2 * π / 2 ^ b) theta := by
  have hp := two_pi_pos
  have h0 : ∀ s ∈ init.map fun p : ℝ × ℝ => (⟨p.1, p.2, 0, 2 * π⟩ : Br), BrInv F s := by
    intro s hs
    obtain ⟨p, hp', rfl⟩ := List.mem_map.mp hs
    obtain ⟨i1, i2⟩ := hinit p hp'
    exact ⟨le_rfl, i1, i2.le, i2, hp, le_rfl, Or.inl rfl, Or.inl rfl⟩
  obtain ⟨h1, hq⟩ := brNewton_inv (f := f) hpost a _ h0
  have hq' : (brNewton F f post a (init.map fun p : ℝ × ℝ => (⟨p.1, p.2, 0, 2 * π⟩ : Br))).map Br.q
      = init.map Prod.fst := by rw [hq, List.map_map]; rfl
  have := solve_list (F := F) (w := 2 * π / 2 ^ b) _ (fun s =>
    if 1 / 10 ^ 12 < |F s.theta - s.q| ∨ 1 / 10 ^ 10 < s.H - s.L
    then brBisect F s.q b s.L s.H else s.theta) _ hq' (by
      intro s hs
      have hi := h1 s hs
      split_ifs with hc
      · refine (brBisect_spec b hi.l0 (hi.lt.trans hi.tH) hi.h2 hi.l2 hi.fl hi.fh).mono ?_
        have := hi.l0
        have := hi.h2
        gcongr
        linarith
      · push Not at hc
        exact ⟨⟨hi.l0.trans hi.lt, hi.t2⟩, Or.inl hc.1⟩)
  refine ⟨this.1.trans (List.length_map _), ?_⟩
  intro i q theta0 theta e1 e2
  exact this.2 i q theta (by rw [List.getElem?_map, e1]; rfl) e2

/-- **C82.** The same for the variant of the wrapped normal family. -/
theorem C82_wrapnorm_solver (F f post : ℝ → ℝ) (hpost : ∀ x, 0 ≤ x → x < 2 * π → post x = x) (a b : ℕ)
    (init : List (ℝ × ℝ)) (hinit : ∀ p ∈ init, 0 ≤ p.2 ∧ p.2 < 2 * π) :
    (wnSolve F f post a b init).length = init.length ∧
    ∀ (i : ℕ) (q theta0 theta : ℝ), init[i]? = some (q, theta0) →
      (wnSolve F f post a b init)[i]? = some theta → SolvesQuantile F q (2 * π / 2 ^ b) theta := by
  have hp := two_pi_pos
  have h0 : ∀ s ∈ init.map fun p : ℝ × ℝ => (⟨p.1, p.2, 0, 2 * π⟩ : Br), BrInv F s := by
    intro s hs
    obtain ⟨p, hp', rfl⟩ := List.mem_map.mp hs
    obtain ⟨i1, i2⟩ := hinit p hp'
    exact ⟨le_rfl, i1, i2.le, i2, hp, le_rfl, Or.inl rfl, Or.inl rfl⟩
  obtain ⟨h1, hq⟩ := wnNewton_inv (f := f) hpost a _ h0
  have hq' : (wnNewton F f post a (init.map fun p : ℝ × ℝ => (⟨p.1, p.2, 0, 2 * π⟩ : Br))).map Br.q
      = init.map Prod.fst := by rw [hq, List.map_map]; rfl
  have := solve_list (F := F) (w := 2 * π / 2 ^ b) _ (fun s =>
    if 1 / 10 ^ 12 < |F s.theta - s.q| then brBisect F s.q b s.L s.H else s.theta) _ hq' (by
      intro s hs
      have hi := h1 s hs
      split_ifs with hc
      · refine (brBisect_spec b hi.l0 (hi.lt.trans hi.tH) hi.h2 hi.l2 hi.fl hi.fh).mono ?_
        have := hi.l0
        have := hi.h2
        gcongr
        linarith
      · exact ⟨⟨hi.l0.trans hi.lt, hi.t2⟩, Or.inl (not_lt.mp hc)⟩)
  refine ⟨this.1.trans (List.length_map _), ?_⟩
  intro i q theta0 theta e1 e2
  exact this.2 i q theta (by rw [List.getElem?_map, e1]; rfl) e2

/-- What this means for a continuous distribution function: if the cdf used is non-decreasing, 0 at 0,
1 at `2π` and does not grow faster than `M` per radian, the cdf at the returned angle is within
`1e-12 + M w` of `q`. -/
theorem C82_accuracy {F : ℝ → ℝ} {M q w theta : ℝ}
    (hmono : ∀ a b, 0 ≤ a → a ≤ b → b ≤ 2 * π → F a ≤ F b ∧ F b - F a ≤ M * (b - a))
    (hF0 : F 0 = 0) (hF1 : F (2 * π) = 1) (hq0 : 0 ≤ q) (hq1 : q ≤ 1) (hM : 0 ≤ M) (hw : 0 ≤ w)
    (h : SolvesQuantile F q w theta) : |F theta - q| ≤ 1 / 10 ^ 12 + M * w := by
  have hMw := mul_nonneg hM hw
  obtain ⟨⟨t0, t1⟩, h | ⟨L, H, p1, p2, p3, p4, p5, p6, p7⟩⟩ := h
  · linarith
  · have hL : F L ≤ q := by
      rcases p6 with e | e
      · rw [e, hF0]; exact hq0
      · exact e
    have hH : q ≤ F H := by
      rcases p7 with e | e
      · rw [e, hF1]; exact hq1
      · exact e.le
    have a := hmono L theta p1 (by linarith) t1.le
    have b := hmono theta H t0 (by linarith) p3
    have c := hmono L H p1 p2 p3
    have d : M * (H - L) ≤ M * w := mul_le_mul_of_nonneg_left p4 hM
    have e12 : (0 : ℝ) < 1 / 10 ^ 12 := by positivity
    rw [abs_le]
    constructor <;> linarith [a.1, b.1, c.2]

/-! ## Non-vacuity -/

/-- The identity scaled to `[0, 2π]`, probability 1/3, starting in the middle. -/
example : ∃ theta, (brSolve (fun x => x / (2 * π)) (fun _ => 1 / (2 * π)) (fun x => pymod x (2 * π)) 6 30
    [(1 / 3, π)])[0]? = some theta ∧ |theta / (2 * π) - 1 / 3| ≤ 1 / 10 ^ 8 := by
  have hpi := pi_gt_three
  have h := C82_solver (fun x => x / (2 * π)) (fun _ => 1 / (2 * π)) (fun x => pymod x (2 * π))
    (fun x a b => pymod_eq_self two_pi_pos a b) 6 30 [(1 / 3, π)] (by
      intro p hp
      rw [List.mem_singleton] at hp
      subst hp
      exact ⟨pi_pos.le, by show π < 2 * π; linarith⟩)
  obtain ⟨hl, hs⟩ := h
  rw [List.length_singleton] at hl
  refine ⟨_, List.getElem?_eq_getElem (by omega), ?_⟩
  have := C82_accuracy (M := 1 / (2 * π)) (fun a b ha hab hb => ⟨by gcongr, by
    rw [← sub_div]; exact le_of_eq (by ring)⟩) (by simp) (by
    show 2 * π / (2 * π) = 1
    exact div_self two_pi_pos.ne') (by norm_num) (by norm_num) (by positivity) (by positivity)
    (hs 0 (1 / 3) π _ rfl (List.getElem?_eq_getElem (by omega)))
  refine this.trans ?_
  have : 1 / (2 * π) * (2 * π / 2 ^ 30) = 1 / 2 ^ 30 := by field_simp
  rw [this]
  norm_num

end Verif
