import Verif.Model.Utils
import Verif.Spec.Circle
import Mathlib.Tactic.Linarith
import Mathlib.Tactic.Ring
import Mathlib.Tactic.FieldSimp
import Mathlib.Tactic.NormNum
import Mathlib.Tactic.Positivity

/-! # Helper lemmas: floor-mod, `angmod`, congruence of angles -/

namespace Verif

open Real Spec

section CongMod
variable {p a b c d : ℝ}

theorem Spec.CongMod.refl (p a : ℝ) : CongMod p a a := ⟨0, by simp⟩

theorem Spec.CongMod.symm (h : CongMod p a b) : CongMod p b a := by
  obtain ⟨k, hk⟩ := h
  exact ⟨-k, by push_cast; linarith⟩

theorem Spec.CongMod.trans (h : CongMod p a b) (h' : CongMod p b c) : CongMod p a c := by
  obtain ⟨k, hk⟩ := h
  obtain ⟨l, hl⟩ := h'
  exact ⟨k + l, by push_cast; linarith⟩

theorem Spec.CongMod.add (h : CongMod p a b) (h' : CongMod p c d) : CongMod p (a + c) (b + d) := by
  obtain ⟨k, hk⟩ := h
  obtain ⟨l, hl⟩ := h'
  exact ⟨k + l, by push_cast; linarith⟩

theorem Spec.CongMod.sub (h : CongMod p a b) (h' : CongMod p c d) : CongMod p (a - c) (b - d) := by
  obtain ⟨k, hk⟩ := h
  obtain ⟨l, hl⟩ := h'
  exact ⟨k - l, by push_cast; linarith⟩

theorem Spec.CongMod.neg (h : CongMod p a b) : CongMod p (-a) (-b) := by
  obtain ⟨k, hk⟩ := h
  exact ⟨-k, by push_cast; linarith⟩

theorem Spec.CongMod.add_right (h : CongMod p a b) (c : ℝ) : CongMod p (a + c) (b + c) :=
  h.add (CongMod.refl p c)

theorem Spec.CongMod.add_left (h : CongMod p a b) (c : ℝ) : CongMod p (c + a) (c + b) :=
  (CongMod.refl p c).add h

theorem Spec.CongMod.add_int (p a : ℝ) (k : ℤ) : CongMod p (a + k * p) a := ⟨k, rfl⟩

/-- Two numbers congruent modulo `p` inside a half-open window of length `p` are equal. -/
theorem Spec.CongMod.eq_of_mem (hp : 0 < p) {lo : ℝ} (h : CongMod p a b)
    (ha : lo ≤ a) (ha' : a < lo + p) (hb : lo ≤ b) (hb' : b < lo + p) : a = b := by
  obtain ⟨k, hk⟩ := h
  have h1 : (k : ℝ) * p < 1 * p := by linarith
  have h2 : (-1 : ℝ) * p < k * p := by linarith
  have h1' : (k : ℝ) < 1 := lt_of_mul_lt_mul_right h1 hp.le
  have h2' : (-1 : ℝ) < k := lt_of_mul_lt_mul_right h2 hp.le
  have h3 : k < 1 := by exact_mod_cast h1'
  have h4 : -1 < k := by exact_mod_cast h2'
  have : k = 0 := by omega
  simp [hk, this]

theorem cos_eq_of_sameDir (h : SameDir a b) : cos a = cos b := by
  obtain ⟨k, hk⟩ := h
  rw [hk, Real.cos_add_int_mul_two_pi]

theorem sin_eq_of_sameDir (h : SameDir a b) : sin a = sin b := by
  obtain ⟨k, hk⟩ := h
  rw [hk, Real.sin_add_int_mul_two_pi]

end CongMod

section pymod
variable {x y b : ℝ}

theorem pymod_nonneg (hb : 0 < b) (x : ℝ) : 0 ≤ pymod x b := by
  have := Int.floor_le (x / b)
  unfold pymod
  have h : b * (⌊x / b⌋ : ℝ) ≤ b * (x / b) := by gcongr
  rw [mul_div_cancel₀ _ hb.ne'] at h
  linarith

theorem pymod_lt (hb : 0 < b) (x : ℝ) : pymod x b < b := by
  have := Int.lt_floor_add_one (x / b)
  unfold pymod
  have h : b * (x / b) < b * ((⌊x / b⌋ : ℝ) + 1) := by gcongr
  rw [mul_div_cancel₀ _ hb.ne'] at h
  linarith

theorem pymod_cong (x b : ℝ) : CongMod b (pymod x b) x :=
  ⟨-⌊x / b⌋, by unfold pymod; push_cast; ring⟩

theorem pymod_eq_iff (hb : 0 < b) : pymod x b = y ↔ 0 ≤ y ∧ y < b ∧ CongMod b y x := by
  constructor
  · rintro rfl
    exact ⟨pymod_nonneg hb x, pymod_lt hb x, pymod_cong x b⟩
  · rintro ⟨h0, h1, h2⟩
    exact ((pymod_cong x b).trans h2.symm).eq_of_mem hb (lo := 0) (pymod_nonneg hb x)
      (by simpa using pymod_lt hb x) h0 (by simpa using h1)

theorem pymod_congr (hb : 0 < b) (h : CongMod b x y) : pymod x b = pymod y b :=
  (pymod_eq_iff hb).2 ⟨pymod_nonneg hb y, pymod_lt hb y, (pymod_cong y b).trans h.symm⟩

theorem pymod_eq_self (hb : 0 < b) (h0 : 0 ≤ x) (h1 : x < b) : pymod x b = x :=
  (pymod_eq_iff hb).2 ⟨h0, h1, CongMod.refl b x⟩

end pymod

section angmod
variable {lo hi x y : ℝ}

theorem angmodB_eq (h : lo < hi) (x : ℝ) : angmodB lo hi x = pymod (x - lo) (hi - lo) + lo := by
  have hp : 0 < hi - lo := by linarith
  have e : pymod (pymod (x - lo) (hi - lo) + (hi - lo)) (hi - lo) = pymod (x - lo) (hi - lo) := by
    rw [pymod_eq_iff hp]
    refine ⟨pymod_nonneg hp _, pymod_lt hp _, ⟨-1, by push_cast; ring⟩⟩
  have h1 := pymod_lt hp (x - lo)
  unfold angmodB
  simp only [e]
  rw [if_neg (by linarith)]

theorem angmodB_mem (h : lo < hi) (x : ℝ) : lo ≤ angmodB lo hi x ∧ angmodB lo hi x < hi := by
  have hp : 0 < hi - lo := by linarith
  rw [angmodB_eq h]
  have := pymod_lt hp (x - lo)
  have := pymod_nonneg hp (x - lo)
  constructor <;> linarith

theorem angmodB_cong (h : lo < hi) (x : ℝ) : CongMod (hi - lo) (angmodB lo hi x) x := by
  rw [angmodB_eq h]
  have := (pymod_cong (x - lo) (hi - lo)).add_right lo
  simpa [angmod2pi] using this

theorem angmodB_eq_iff (h : lo < hi) :
    angmodB lo hi x = y ↔ lo ≤ y ∧ y < hi ∧ CongMod (hi - lo) y x := by
  constructor
  · rintro rfl
    exact ⟨(angmodB_mem h x).1, (angmodB_mem h x).2, angmodB_cong h x⟩
  · rintro ⟨h0, h1, h2⟩
    exact ((angmodB_cong h x).trans h2.symm).eq_of_mem (by linarith) (lo := lo)
      (angmodB_mem h x).1 (by linarith [(angmodB_mem h x).2]) h0 (by linarith)

theorem two_pi_pos' : (0 : ℝ) < 2 * π := Real.two_pi_pos

theorem angmod2pi_eq_pymod (x : ℝ) : angmod2pi x = pymod x (2 * π) := by
  unfold angmod2pi
  rw [angmodB_eq two_pi_pos']
  simp

theorem angmod2pi_nonneg (x : ℝ) : 0 ≤ angmod2pi x := (angmodB_mem two_pi_pos' x).1
theorem angmod2pi_lt (x : ℝ) : angmod2pi x < 2 * π := (angmodB_mem two_pi_pos' x).2
theorem angmod2pi_cong (x : ℝ) : SameDir (angmod2pi x) x := by
  simpa [angmod2pi] using angmodB_cong two_pi_pos' x
theorem angmod2pi_eq_iff : angmod2pi x = y ↔ 0 ≤ y ∧ y < 2 * π ∧ SameDir y x := by
  have := angmodB_eq_iff (x := x) (y := y) two_pi_pos'
  simpa [angmod2pi] using this
theorem angmod2pi_congr (h : SameDir x y) : angmod2pi x = angmod2pi y := by
  rw [angmod2pi_eq_pymod, angmod2pi_eq_pymod, pymod_congr two_pi_pos' h]
theorem angmod2pi_eq_self (h0 : 0 ≤ x) (h1 : x < 2 * π) : angmod2pi x = x :=
  angmod2pi_eq_iff.2 ⟨h0, h1, CongMod.refl _ _⟩
theorem angmod2pi_eq_iff_sameDir : angmod2pi x = angmod2pi y ↔ SameDir x y := by
  constructor
  · intro h
    exact ((angmod2pi_cong x).symm.trans (h ▸ CongMod.refl _ _)).trans (angmod2pi_cong y)
  · exact angmod2pi_congr

@[simp] theorem cos_angmod2pi (x : ℝ) : cos (angmod2pi x) = cos x :=
  cos_eq_of_sameDir (angmod2pi_cong x)
@[simp] theorem sin_angmod2pi (x : ℝ) : sin (angmod2pi x) = sin x :=
  sin_eq_of_sameDir (angmod2pi_cong x)

end angmod

end Verif
