import Verif.Lemmas.Samples
import Verif.Spec.Rank
import Mathlib.Algebra.BigOperators.Group.Finset.Basic

/-!
# Lemmas on ranks, positions and empirical distribution functions
-/

set_option autoImplicit false

namespace Verif

open Real Verif.Spec

lemma uniqueR_sorted (l : List ℝ) : (uniqueR l).Pairwise (· < ·) := by
  have h1 : (uniqueR l).Pairwise (· ≤ ·) := (sortR_sorted l).sublist (List.dedup_sublist _)
  have h2 : (uniqueR l).Nodup := List.nodup_dedup _
  have := h1.and h2
  exact this.imp fun h => lt_of_le_of_ne h.1 h.2

lemma mem_uniqueR {l : List ℝ} {x : ℝ} : x ∈ uniqueR l ↔ x ∈ l := by
  unfold uniqueR; rw [List.mem_dedup, mem_sortR]

lemma uniqueR_nodup (l : List ℝ) : (uniqueR l).Nodup := List.nodup_dedup _

lemma closePositions_eq {u : List ℝ} {v atol : ℝ} (hu : u.Nodup) (hv : v ∈ u) (ha : 0 ≤ atol)
    (hs : Separated atol u) : closePositions u v atol = [u.idxOf v] := by
  have hi : u.idxOf v < u.length := List.idxOf_lt_length_of_mem hv
  have hp : ∀ i ∈ List.range u.length,
      decide (isclose (u.getD i 0) v rtolDefault atol) = decide (i = u.idxOf v) := by
    intro i hi'
    rw [List.mem_range] at hi'
    rw [decide_eq_decide, List.getD_eq_getElem?_getD, List.getElem?_eq_getElem hi', Option.getD_some]
    constructor
    · intro h
      by_contra hne
      have : u[i] ≠ v := by
        intro h'
        apply hne
        rw [← h']
        exact (hu.idxOf_getElem i hi').symm
      have := hs _ (List.getElem_mem hi') v hv this
      unfold isclose rtolDefault at h
      linarith
    · rintro rfl
      unfold isclose rtolDefault
      rw [List.getElem_idxOf, sub_self, abs_zero]
      positivity
  unfold closePositions
  rw [List.filter_congr hp]
  have : (List.range u.length).filter (fun i => decide (i = u.idxOf v)) = [u.idxOf v] := by
    rw [show (fun i => decide (i = u.idxOf v)) = fun i => i == u.idxOf v by
      funext i; simp [beq_eq_decide]]
    rw [List.filter_beq, List.count_eq_one_of_mem List.nodup_range (List.mem_range.2 hi)]
    rfl
  exact this

lemma map_closePositions {u x : List ℝ} {atol : ℝ} (hu : u.Nodup) (hx : ∀ v ∈ x, v ∈ u) (ha : 0 ≤ atol)
    (hs : Separated atol u) :
    (x.map fun v => closePositions u v atol).flatten = x.map fun v => u.idxOf v := by
  induction x with
  | nil => rfl
  | cons v x ih =>
    rw [List.map_cons, List.flatten_cons, closePositions_eq hu (hx v (by simp)) ha hs,
      ih fun v hv => hx v (by simp [hv])]
    rfl

/-- In a strictly increasing list the position of a member is the number of smaller members. -/
lemma lt_of_idx {u : List ℝ} (hu : u.Pairwise (· < ·)) {i : ℕ} {v : ℝ} (hi : i < u.length) (hv : v ∈ u) :
    i < u.idxOf v ↔ u[i] < v := by
  have hj : u.idxOf v < u.length := List.idxOf_lt_length_of_mem hv
  have hvj : u[u.idxOf v] = v := List.getElem_idxOf hj
  constructor
  · intro h
    have := List.pairwise_iff_getElem.1 hu i _ hi hj h
    rwa [hvj] at this
  · intro h
    by_contra hc
    rcases Nat.lt_or_ge (u.idxOf v) i with h' | h'
    · have := List.pairwise_iff_getElem.1 hu _ i hj hi h'
      rw [hvj] at this; linarith
    · have : i = u.idxOf v := by omega
      subst this
      rw [hvj] at h; exact lt_irrefl _ h

lemma idxOf_lt_iff {u : List ℝ} (hu : u.Pairwise (· < ·)) {a b : ℝ} (ha : a ∈ u) (hb : b ∈ u) :
    u.idxOf a < u.idxOf b ↔ a < b := by
  have := lt_of_idx hu (List.idxOf_lt_length_of_mem ha) hb
  rwa [List.getElem_idxOf] at this

lemma idxOf_eq_countLt {u : List ℝ} (hu : u.Pairwise (· < ·)) {v : ℝ} (hv : v ∈ u) :
    u.idxOf v + 1 = countLe u v := by
  unfold countLe
  induction u with
  | nil => simp at hv
  | cons a u ih =>
    rw [List.pairwise_cons] at hu
    by_cases h : a = v
    · subst h
      have : u.countP (fun y => decide (y ≤ a)) = 0 := by
        rw [List.countP_eq_zero]
        intro y hy
        simpa using hu.1 y hy
      simp [this]
    · have hv' : v ∈ u := by
        rcases List.mem_cons.1 hv with h' | h'
        · exact absurd h'.symm h
        · exact h'
      rw [List.idxOf_cons_ne _ h, List.countP_cons_of_pos (by simpa using (hu.1 v hv').le), ← ih hu.2 hv']

/-- Blocks of repeated values, as `np.repeat(freq, np.diff(idx))` makes them. -/
private noncomputable def blocks (u : List ℝ) (F : ℝ → ℝ) : ℕ → ℝ → List ℝ → List ℝ
  | p, c, [] => List.replicate (u.length - p) c
  | p, c, r :: rest => List.replicate (u.idxOf r - p) c ++ blocks u F (u.idxOf r) (F r) rest

private lemma blocks_eq {u : List ℝ} (hu : u.Pairwise (· < ·)) (x : List ℝ) (hx : x.Pairwise (· ≤ ·))
    (hm : ∀ v ∈ x, v ∈ u) (F : ℝ → ℝ) (hF : ∀ v, F v = ecdf x v) :
    ∀ (rest pre : List ℝ) (p : ℕ) (c : ℝ), x = pre ++ rest → p ≤ u.length →
      (∀ r ∈ rest, p ≤ u.idxOf r) →
      (∀ j (hj : j < u.length), p ≤ j → ∀ y ∈ pre, y ≤ u[j]) →
      (∀ v, (∀ y ∈ pre, y ≤ v) → (∀ z ∈ rest, v < z) → F v = c) →
      blocks u F p c rest = (u.drop p).map F := by
  intro rest
  induction rest with
  | nil =>
    intro pre p c hpre hp _ hpj hc
    unfold blocks
    symm
    rw [List.eq_replicate_iff]
    refine ⟨by simp, ?_⟩
    intro b hb
    obtain ⟨v, hv, rfl⟩ := List.mem_map.1 hb
    obtain ⟨i, hi, rfl⟩ := List.getElem_of_mem hv
    rw [List.getElem_drop]
    apply hc
    · intro y hy
      exact hpj _ _ (by omega) y hy
    · simp
  | cons r rest ih =>
    intro pre p c hpre hp hpr hpj hc
    unfold blocks
    have hru : r ∈ u := hm r (by rw [hpre]; simp)
    have hir := List.idxOf_lt_length_of_mem hru
    have hpi := hpr r (by simp)
    rw [hpre, List.pairwise_append] at hx
    obtain ⟨-, hrs, hcross⟩ := hx
    rw [List.pairwise_cons] at hrs
    rw [ih (pre ++ [r]) (u.idxOf r) (F r) (by rw [hpre]; simp) hir.le]
    · have hsplit : u.drop p = (u.drop p).take (u.idxOf r - p) ++ u.drop (u.idxOf r) := by
        conv_lhs => rw [← List.take_append_drop (u.idxOf r - p) (u.drop p)]
        rw [List.drop_drop, show p + (u.idxOf r - p) = u.idxOf r by omega]
      rw [hsplit, List.map_append]
      congr 1
      symm
      rw [List.eq_replicate_iff]
      refine ⟨by simp; omega, ?_⟩
      intro b hb
      obtain ⟨v, hv, rfl⟩ := List.mem_map.1 hb
      obtain ⟨i, hi, rfl⟩ := List.getElem_of_mem hv
      rw [List.length_take, List.length_drop] at hi
      rw [List.getElem_take, List.getElem_drop]
      have hlt : p + i < u.length := by omega
      apply hc
      · intro y hy
        exact hpj _ hlt (by omega) y hy
      · intro z hz
        have h1 : u[p + i] < r := (lt_of_idx hu hlt hru).1 (by omega)
        rcases List.mem_cons.1 hz with rfl | hz
        · exact h1
        · exact lt_of_lt_of_le h1 (hrs.1 z hz)
    · intro r' hr'
      by_contra hcon
      have := (idxOf_lt_iff hu (hm r' (by rw [hpre]; simp [hr'])) hru).1 (by omega)
      exact absurd (hrs.1 r' hr') (by linarith)
    · intro j hj hpj' y hy
      have hrj : r ≤ u[j] := by
        by_contra hcon
        have := (lt_of_idx hu hj hru).2 (by linarith)
        omega
      rcases List.mem_append.1 hy with hy | hy
      · exact (hcross y hy r (by simp)).trans hrj
      · rw [List.mem_singleton] at hy; rw [hy]; exact hrj
    · intro v hv hz
      rw [hF, hF]
      unfold ecdf countLe
      congr 2
      apply List.countP_congr
      intro y hy
      rw [hpre] at hy
      have hrv : r ≤ v := hv r (by simp)
      simp only [decide_eq_true_eq]
      rcases List.mem_append.1 hy with hy | hy
      · exact ⟨fun _ => hcross y hy r (by simp), fun _ => hv y (by simp [hy])⟩
      · rcases List.mem_cons.1 hy with rfl | hy
        · exact ⟨fun _ => le_rfl, fun _ => hrv⟩
        · have := hz y hy
          exact ⟨fun h => absurd h (by linarith), fun h => absurd h (by linarith)⟩

/-- The list handed to `np.diff`. -/
private lemma npRepeat_blocks {u : List ℝ} (hu : u.Pairwise (· < ·)) (F : ℝ → ℝ) :
    ∀ (x : List ℝ) (p : ℕ) (c : ℝ), x.Pairwise (· ≤ ·) → (∀ v ∈ x, v ∈ u) → p ≤ u.length →
      (∀ v ∈ x, p ≤ u.idxOf v) →
      npRepeat (c :: x.map F) (diffZ ((p : ℤ) :: ((x.map fun v => u.idxOf v).map (fun i : ℕ => (i : ℤ))
        ++ [(u.length : ℤ)]))) = .ok (blocks u F p c x) := by
  intro x
  induction x with
  | nil =>
    intro p c _ _ hp _
    unfold npRepeat diffZ blocks
    have : ¬ ((u.length : ℤ) - p < 0) := by omega
    simp [this]
  | cons r x ih =>
    intro p c hx hm hp hpx
    rw [List.pairwise_cons] at hx
    have hru : r ∈ u := hm r (by simp)
    have hir := List.idxOf_lt_length_of_mem hru
    have := ih (u.idxOf r) (F r) hx.2 (fun v hv => hm v (by simp [hv])) hir.le (by
      intro v hv
      by_contra hcon
      have := (idxOf_lt_iff hu (hm v (by simp [hv])) hru).1 (by omega)
      exact absurd (hx.1 v hv) (by linarith))
    have hp' := hpx r (by simp)
    unfold npRepeat at this ⊢
    rw [show diffZ ((p : ℤ) :: (((r :: x).map fun v => u.idxOf v).map (fun i : ℕ => (i : ℤ))
        ++ [(u.length : ℤ)])) = ((u.idxOf r : ℤ) - p) :: diffZ ((u.idxOf r : ℤ) ::
          ((x.map fun v => u.idxOf v).map (fun i : ℕ => (i : ℤ)) ++ [(u.length : ℤ)])) from rfl]
    split_ifs at this with h1 h2
    rw [if_neg, if_neg]
    · simp only [Except.ok.injEq] at this
      rw [List.map_cons, List.zipWith_cons_cons, List.flatten_cons, this]
      simp only [blocks]
      rw [show ((u.idxOf r : ℤ) - p).toNat = u.idxOf r - p by omega]
    · rintro ⟨t, ht, ht0⟩
      rcases List.mem_cons.1 ht with rfl | ht
      · omega
      · exact h2 ⟨t, ht, ht0⟩
    · simpa using h1

lemma rankMax_eq (x : List ℝ) : (rankMax x).map (fun c : ℝ => c / (x.length : ℝ)) = x.map (ecdf x) := by
  unfold rankMax
  rw [List.map_map]
  rfl

/-- For a sorted sample whose values are all present in `u`, `cumfreq` is the empirical distribution
function at the members of `u`. -/
lemma cumfreq_sorted {u x : List ℝ} (hu : u.Pairwise (· < ·)) (hs : Separated (1 / 10 ^ 10) u)
    (hx : x.Pairwise (· ≤ ·)) (hm : ∀ v ∈ x, v ∈ u) : cumfreq u x = .ok (u.map (ecdf x)) := by
  have hn : u.Nodup := hu.imp fun h => h.ne
  unfold cumfreq
  simp only
  rw [map_closePositions hn hm (by positivity) hs, rankMax_eq]
  have := npRepeat_blocks hu (ecdf x) x 0 0 hx hm (by omega) (by simp)
  rw [Nat.cast_zero] at this
  rw [this]
  rw [blocks_eq hu x hx hm (ecdf x) (fun _ => rfl) x [] 0 0 rfl (by omega) (by simp) (by simp)]
  · simp
  · intro v _ hz
    unfold ecdf countLe
    have : x.countP (fun y => decide (y ≤ v)) = 0 := by
      rw [List.countP_eq_zero]
      intro y hy
      simpa using hz y hy
    rw [this]; simp

private lemma diffZ_neg {f : ℝ → ℤ} : ∀ {x : List ℝ} (p : ℤ) (tl : List ℤ), ¬ x.IsChain (fun a b => f a ≤ f b) →
    ∃ t ∈ diffZ (p :: (x.map f ++ tl)), t < 0 := by
  intro x
  induction x with
  | nil => intro p tl h; exact absurd .nil h
  | cons a x ih =>
    intro p tl h
    cases x with
    | nil => exact absurd (.singleton a) h
    | cons b x =>
      by_cases hab : f a ≤ f b
      · have h' : ¬ (b :: x).IsChain (fun a b => f a ≤ f b) := by
          intro hc; exact h (.cons_cons hab hc)
        obtain ⟨t, ht, ht0⟩ := ih (f a) tl h'
        exact ⟨t, List.mem_cons_of_mem _ ht, ht0⟩
      · refine ⟨f b - f a, ?_, by omega⟩
        show f b - f a ∈ (f a - p) :: (f b - f a) :: _
        simp

/-- For a sample that is not in increasing order `cumfreq` raises `ValueError`. -/
lemma cumfreq_unsorted {u x : List ℝ} (hu : u.Pairwise (· < ·)) (hs : Separated (1 / 10 ^ 10) u)
    (hx : ¬ x.Pairwise (· ≤ ·)) (hm : ∀ v ∈ x, v ∈ u) : cumfreq u x = .error .valueError := by
  have hn : u.Nodup := hu.imp fun h => h.ne
  unfold cumfreq
  simp only
  rw [map_closePositions hn hm (by positivity) hs, rankMax_eq, List.map_map]
  unfold npRepeat
  split_ifs with h1 h2
  · rfl
  · rfl
  · exfalso
    apply h2
    apply diffZ_neg
    intro hc
    apply hx
    have : x.IsChain (· ≤ ·) := by
      rw [List.isChain_iff_getElem] at hc ⊢
      intro i hi
      have := hc i hi
      simp only [Function.comp, Nat.cast_le] at this
      by_contra hcon
      have := (idxOf_lt_iff hu (hm x[i+1] (List.getElem_mem _)) (hm x[i] (List.getElem_mem _))).2
        (by linarith)
      omega
    exact List.isChain_iff_pairwise.1 this

/-- Sum over distinct values weighted by counts. -/
lemma sum_unique (l : List ℝ) (f : ℝ → ℝ) :
    ((uniqueR l).map fun v => (l.count v : ℝ) * f v).sum = (l.map f).sum := by
  have h1 := Finset.sum_list_map_count l f
  rw [h1]
  have : l.toFinset = (uniqueR l).toFinset := by
    ext v; simp [mem_uniqueR]
  rw [this, List.sum_toFinset _ (uniqueR_nodup l)]
  congr 1
  apply List.map_congr_left
  intro v _
  simp

lemma separated_unique {atol : ℝ} {l : List ℝ} (h : Separated atol l) : Separated atol (uniqueR l) :=
  fun a ha b hb => h a (mem_uniqueR.1 ha) b (mem_uniqueR.1 hb)

/-- Rotation by `t` of a value in `[0, 2π)`, wrapped back. -/
noncomputable def rot (t a : ℝ) : ℝ := if a < 2 * π - t then a + t else a + t - 2 * π

lemma countLe_rot (x : List ℝ) (t v : ℝ) (hx : ∀ a ∈ x, 0 ≤ a ∧ a < 2 * π)
    (hv : 0 ≤ v ∧ v < 2 * π) (ht : 0 ≤ t ∧ t < 2 * π) :
    (countLe (x.map (rot t)) (rot t v) : ℝ) = countLe x v
      + (if v < 2 * π - t then (x.length : ℝ) else 0) - x.countP (fun a => decide (a < 2 * π - t)) := by
  unfold countLe
  induction x with
  | nil => simp
  | cons a x ih =>
    have ha := hx a (by simp)
    have ih := ih (fun a ha => hx a (by simp [ha]))
    simp only [List.map_cons, List.countP_cons, List.length_cons]
    push_cast
    rw [ih]
    have key : ((if rot t a ≤ rot t v then (1 : ℝ) else 0)) = (if a ≤ v then (1 : ℝ) else 0)
        + (if v < 2 * π - t then 1 else 0) - (if a < 2 * π - t then 1 else 0) := by
      unfold rot
      by_cases h1 : a < 2 * π - t <;> by_cases h2 : v < 2 * π - t <;>
        by_cases h3 : a ≤ v <;> simp only [h1, h2, h3, if_true, if_false]
      · rw [if_pos (by linarith)]; norm_num
      · rw [if_neg (by linarith)]; norm_num
      · rw [if_neg (by linarith)]; norm_num
      · exfalso; linarith
      · exfalso; linarith
      · rw [if_pos (by linarith)]; norm_num
      · rw [if_pos (by linarith)]; norm_num
      · rw [if_neg (by linarith)]; norm_num
    simp only [decide_eq_true_eq]
    rw [key]
    split_ifs <;> ring

/-- A rotated sample consists of the wrapped sums with one `s` in `[0, 2π)`. -/
lemma isRotated_rot {t : ℝ} {x x' : List ℝ} (h : IsRotated t x x') (hx : ∀ a ∈ x, 0 ≤ a ∧ a < 2 * π) :
    (0 ≤ angmod2pi t ∧ angmod2pi t < 2 * π) ∧ x'.Perm (x.map (rot (angmod2pi t))) := by
  have hsm : 0 ≤ angmod2pi t ∧ angmod2pi t < 2 * π := ⟨angmod2pi_nonneg t, angmod2pi_lt t⟩
  refine ⟨hsm, ?_⟩
  obtain ⟨z, hz, hp⟩ := h
  suffices z = x.map (rot (angmod2pi t)) by rw [← this]; exact hp
  clear hp
  induction hz with
  | nil => rfl
  | @cons a b x z hab _ ih =>
    rw [List.map_cons, ih fun a ha => hx a (by simp [ha])]
    congr 1
    have ha := hx a (by simp)
    have h1 : SameDir (a + t) (a + angmod2pi t) := (CongMod.refl (2 * π) a).add (angmod2pi_cong t).symm
    have h2 : SameDir (rot (angmod2pi t) a) (a + angmod2pi t) := by
      unfold rot
      split_ifs
      · exact CongMod.refl _ _
      · exact ⟨-1, by push_cast; ring⟩
    have h3 : 0 ≤ rot (angmod2pi t) a ∧ rot (angmod2pi t) a < 2 * π := by
      unfold rot
      split_ifs with h
      · constructor <;> linarith
      · constructor <;> linarith
    have e1 := angmod2pi_eq_self hab.1.1 hab.1.2
    have e2 := angmod2pi_eq_self h3.1 h3.2
    rw [← e1, ← e2, angmod2pi_eq_iff_sameDir]
    exact hab.2.trans (h1.trans h2.symm)

end Verif
