import Verif.Lemmas.Groups
import Mathlib.Data.List.ProdSigma

/-!
# C48: Harrison-Kanji two-way analysis of variance
-/

set_option autoImplicit false

namespace Verif.Props

open Real Verif Verif.Spec

/-- Mean vector of a sample. -/
noncomputable def meanVec (g : List ℝ) : ℂ := resultant g / (g.length : ℝ)

/-- The unit vector of an angle. -/
noncomputable def uvec (a : ℝ) : ℂ := Complex.exp ((a : ℂ) * Complex.I)

/-- Dispersion of a sample about its mean vector. -/
noncomputable def within (g : List ℝ) : ℝ := (g.map fun a => ‖uvec a - meanVec g‖ ^ 2).sum

/-- Dispersion of the mean vectors of groups about `c`, weighted with the group sizes. -/
noncomputable def between (gs : List (List ℝ)) (c : ℂ) : ℝ :=
  (gs.map fun g => (g.length : ℝ) * ‖meanVec g - c‖ ^ 2).sum

/-- All angles of a layout. -/
def angles (data : List (ℝ × ℤ × ℤ)) : List ℝ := data.map fun d => d.1

/-- Distinct levels of the first factor. -/
def levelsA (data : List (ℝ × ℤ × ℤ)) : List ℤ := (data.map fun d => d.2.1).dedup

/-- Distinct levels of the second factor. -/
def levelsB (data : List (ℝ × ℤ × ℤ)) : List ℤ := (data.map fun d => d.2.2).dedup

/-- Angles observed at a level of the first factor. -/
def rowOf (data : List (ℝ × ℤ × ℤ)) (p : ℤ) : List ℝ := (data.filter fun d => d.2.1 = p).map fun d => d.1

/-- Angles observed at a level of the second factor. -/
def colOf (data : List (ℝ × ℤ × ℤ)) (q : ℤ) : List ℝ := (data.filter fun d => d.2.2 = q).map fun d => d.1

/-- Angles observed at a combination of levels. -/
def cellAt (data : List (ℝ × ℤ × ℤ)) (p q : ℤ) : List ℝ :=
  (data.filter fun d => d.2.1 = p ∧ d.2.2 = q).map fun d => d.1

/-- All combinations of levels. -/
def cells (data : List (ℝ × ℤ × ℤ)) : List (List ℝ) :=
  (levelsA data).flatMap fun p => (levelsB data).map fun q => cellAt data p q

/-! ### Helpers -/

private lemma uvec_norm (a : ℝ) : ‖uvec a‖ = 1 := Complex.norm_exp_ofReal_mul_I a

private lemma nsub_sq (z c : ℂ) : ‖z - c‖ ^ 2 = ‖z‖ ^ 2 + ‖c‖ ^ 2 - 2 * (z.re * c.re + z.im * c.im) := by
  rw [← Complex.normSq_eq_norm_sq, ← Complex.normSq_eq_norm_sq, ← Complex.normSq_eq_norm_sq]
  simp only [Complex.normSq_apply, Complex.sub_re, Complex.sub_im]
  ring

private lemma nsq (z : ℂ) : ‖z‖ ^ 2 = z.re ^ 2 + z.im ^ 2 := by
  rw [← Complex.normSq_eq_norm_sq, Complex.normSq_apply]; ring

private lemma resultant_uvec (g : List ℝ) : resultant g = (g.map uvec).sum := rfl

private lemma sum_dev (g : List ℝ) (c : ℂ) : (g.map fun a => ‖uvec a - c‖ ^ 2).sum
    = g.length + g.length * ‖c‖ ^ 2 - 2 * ((resultant g).re * c.re + (resultant g).im * c.im) := by
  rw [resultant_uvec]
  induction g with
  | nil => simp
  | cons a g ih =>
    simp only [List.map_cons, List.sum_cons, List.length_cons, ih, Complex.add_re, Complex.add_im]
    rw [nsub_sq, uvec_norm]
    push_cast
    ring

private lemma meanVec_re (g : List ℝ) : (meanVec g).re = (resultant g).re / g.length ∧
    (meanVec g).im = (resultant g).im / g.length := by
  unfold meanVec
  exact ⟨Complex.div_ofReal_re _ _, Complex.div_ofReal_im _ _⟩

private lemma within_eq (g : List ℝ) (h : g ≠ []) : within g = g.length - ‖resultant g‖ ^ 2 / g.length := by
  have hl : (g.length : ℝ) ≠ 0 := by
    have := List.length_pos_iff.2 h
    positivity
  unfold within
  rw [sum_dev, nsq (meanVec g), (meanVec_re g).1, (meanVec_re g).2, nsq]
  field_simp
  ring

private lemma between_term (g : List ℝ) (h : g ≠ []) (c : ℂ) : (g.length : ℝ) * ‖meanVec g - c‖ ^ 2
    = ‖resultant g‖ ^ 2 / g.length + g.length * ‖c‖ ^ 2
      - 2 * ((resultant g).re * c.re + (resultant g).im * c.im) := by
  have hl : (g.length : ℝ) ≠ 0 := by
    have := List.length_pos_iff.2 h
    positivity
  rw [nsub_sq, nsq (meanVec g), (meanVec_re g).1, (meanVec_re g).2, nsq (resultant g)]
  field_simp

private lemma between_sum (gs : List (List ℝ)) (h : ∀ g ∈ gs, g ≠ []) (c : ℂ) : between gs c
    = (gs.map fun g => ‖resultant g‖ ^ 2 / g.length).sum
      + (gs.map fun g => (g.length : ℝ)).sum * ‖c‖ ^ 2
      - 2 * ((gs.map fun g => resultant g).sum.re * c.re + (gs.map fun g => resultant g).sum.im * c.im) := by
  unfold between
  induction gs with
  | nil => simp
  | cons g gs ih =>
    simp only [List.map_cons, List.sum_cons, Complex.add_re, Complex.add_im]
    rw [ih fun g hg => h g (by simp [hg]), between_term g (h g (by simp))]
    ring

private lemma between_eq (gs : List (List ℝ)) (all : List ℝ) (hall : all ≠ []) (h : ∀ g ∈ gs, g ≠ [])
    (h1 : (gs.map fun g => (g.length : ℝ)).sum = all.length) (h2 : (gs.map fun g => resultant g).sum = resultant all) :
    between gs (meanVec all)
      = (gs.map fun g => ‖resultant g‖ ^ 2 / g.length).sum - ‖resultant all‖ ^ 2 / all.length := by
  have hl : (all.length : ℝ) ≠ 0 := by
    have := List.length_pos_iff.2 hall
    positivity
  rw [between_sum gs h, h1, h2, nsq (meanVec all), (meanVec_re all).1, (meanVec_re all).2, nsq (resultant all)]
  field_simp
  ring

private lemma sum_indicator {M : Type} [AddCommMonoid M] {κ : Type} [DecidableEq κ] (ks : List κ) (hn : ks.Nodup)
    (k : κ) (hk : k ∈ ks) (x : M) : (ks.map fun j => if k = j then x else 0).sum = x := by
  induction ks with
  | nil => simp at hk
  | cons j ks ih =>
    rw [List.map_cons, List.sum_cons]
    obtain ⟨hj, hn⟩ := List.nodup_cons.1 hn
    rcases List.mem_cons.1 hk with rfl | hk
    · rw [if_pos rfl]
      have : (ks.map fun j => if k = j then x else 0) = ks.map fun _ => (0 : M) :=
        List.map_congr_left fun j hjm => if_neg (by rintro rfl; exact hj hjm)
      rw [this]; simp
    · have : k ≠ j := fun h => hj (h ▸ hk)
      rw [if_neg this, ih hn hk, zero_add]

/-- Summing over groups is summing over everything. -/
private lemma sum_partition {M : Type} [AddCommMonoid M] {δ κ : Type} [DecidableEq κ] (data : List δ) (lab : δ → κ)
    (ks : List κ) (hn : ks.Nodup) (hk : ∀ d ∈ data, lab d ∈ ks) (φ : δ → M) :
    (ks.map fun k => ((data.filter fun d => lab d = k).map φ).sum).sum = (data.map φ).sum := by
  induction data with
  | nil => simp
  | cons d data ih =>
    have : (ks.map fun k => (((d :: data).filter fun d => lab d = k).map φ).sum)
        = ks.map fun k => (if lab d = k then φ d else 0) + ((data.filter fun d => lab d = k).map φ).sum := by
      refine List.map_congr_left fun k _ => ?_
      rw [List.filter_cons]
      by_cases h : lab d = k <;> simp [h]
    rw [this, List.sum_map_add, ih fun d hd => hk d (by simp [hd]),
      sum_indicator ks hn _ (hk d (by simp)), List.map_cons, List.sum_cons]

private lemma sum_len (l : List (ℝ × ℤ × ℤ)) : ((l.map fun d => d.1).length : ℝ) = (l.map fun _ => (1 : ℝ)).sum := by
  simp

private lemma res_sum (l : List (ℝ × ℤ × ℤ)) : resultant (l.map fun d => d.1) = (l.map fun d => uvec d.1).sum := by
  rw [resultant_uvec, List.map_map]; rfl

private lemma partition_facts {κ : Type} [DecidableEq κ] (data : List (ℝ × ℤ × ℤ)) (lab : ℝ × ℤ × ℤ → κ)
    (ks : List κ) (hn : ks.Nodup) (hk : ∀ d ∈ data, lab d ∈ ks) (G : κ → List ℝ)
    (hG : ∀ k ∈ ks, G k = (data.filter fun d => lab d = k).map fun d => d.1) :
    ((ks.map G).map fun g => (g.length : ℝ)).sum = (angles data).length ∧
      ((ks.map G).map fun g => resultant g).sum = resultant (angles data) := by
  constructor
  · rw [List.map_map, angles, sum_len, ← sum_partition data lab ks hn hk]
    congr 1
    refine List.map_congr_left fun k hkm => ?_
    rw [← sum_len, Function.comp_apply, hG k hkm]
  · rw [List.map_map, angles, res_sum, ← sum_partition data lab ks hn hk]
    congr 1
    refine List.map_congr_left fun k hkm => ?_
    rw [← res_sum, Function.comp_apply, hG k hkm]

private lemma row_ne {data : List (ℝ × ℤ × ℤ)} {p : ℤ} (h : p ∈ levelsA data) : rowOf data p ≠ [] := by
  obtain ⟨d, hd, rfl⟩ := List.mem_map.1 (List.mem_dedup.1 h)
  intro hc
  have : d.1 ∈ rowOf data d.2.1 := List.mem_map.2 ⟨d, List.mem_filter.2 ⟨hd, by simp⟩, rfl⟩
  rw [hc] at this; simp at this

private lemma col_ne {data : List (ℝ × ℤ × ℤ)} {q : ℤ} (h : q ∈ levelsB data) : colOf data q ≠ [] := by
  obtain ⟨d, hd, rfl⟩ := List.mem_map.1 (List.mem_dedup.1 h)
  intro hc
  have : d.1 ∈ colOf data d.2.2 := List.mem_map.2 ⟨d, List.mem_filter.2 ⟨hd, by simp⟩, rfl⟩
  rw [hc] at this; simp at this

private lemma sumRsq_eq {gs : List (List ℝ)} (h : ∀ g ∈ gs, g ≠ []) :
    sumRsq gs = some (gs.map fun g => ‖resultant g‖ ^ 2 / g.length).sum := by
  unfold sumRsq
  rw [optMapM_some (g := fun g => ‖resultant g‖ ^ 2 / (g.length : ℝ)), Option.map_some]
  intro g hg
  have hl : (g.length : ℝ) ≠ 0 := by
    have := List.length_pos_iff.2 (h g hg)
    positivity
  rw [groupR_some (h g hg), Option.bind_some, pydiv, if_neg hl]

private lemma sumRsq_none {gs : List (List ℝ)} (h : [] ∈ gs) : sumRsq gs = none := by
  unfold sumRsq
  rw [optMapM_none h (by rw [groupR_nil]; rfl)]
  rfl

private lemma rows_eq (data : Layout) : ((levels (data.map fun d => d.2.1)).map fun p => cellOf data fun k => k.1 == p)
    = (levelsA data).map (rowOf data) := by
  unfold levels levelsA rowOf cellOf
  refine List.map_congr_left fun p _ => ?_
  congr 1

private lemma cols_eq (data : Layout) : ((levels (data.map fun d => d.2.2)).map fun p => cellOf data fun k => k.2 == p)
    = (levelsB data).map (colOf data) := by
  unfold levels levelsB colOf cellOf
  refine List.map_congr_left fun p _ => ?_
  congr 1

private lemma cells_eq (data : Layout) : (((levels (data.map fun d => d.2.1)).flatMap fun p =>
    (levels (data.map fun d => d.2.2)).map fun q => (p, q)).map fun c => cellOf data fun k => k == c)
    = cells data := by
  unfold levels cells levelsA levelsB cellAt cellOf
  rw [List.map_flatMap]
  congr 1
  funext p
  rw [List.map_map]
  refine List.map_congr_left fun q _ => ?_
  simp only [Function.comp_apply]
  congr 1
  apply List.filter_congr
  intro d _
  rw [Bool.eq_iff_iff]
  simp [Prod.ext_iff]

private lemma hkA_eq (data : Layout) :
    hkA data = some (((levelsA data).map (rowOf data)).map fun g => ‖resultant g‖ ^ 2 / g.length).sum := by
  unfold hkA
  rw [rows_eq, sumRsq_eq]
  intro g hg
  obtain ⟨p, hp, rfl⟩ := List.mem_map.1 hg
  exact row_ne hp

private lemma hkB_eq (data : Layout) :
    hkB data = some (((levelsB data).map (colOf data)).map fun g => ‖resultant g‖ ^ 2 / g.length).sum := by
  unfold hkB
  rw [cols_eq, sumRsq_eq]
  intro g hg
  obtain ⟨p, hp, rfl⟩ := List.mem_map.1 hg
  exact col_ne hp

private lemma hkC_eq (data : Layout) (h : ∀ g ∈ cells data, g ≠ []) :
    hkC data = some ((cells data).map fun g => ‖resultant g‖ ^ 2 / g.length).sum := by
  unfold hkC
  rw [cells_eq, sumRsq_eq h]

private lemma angles_ne {data : Layout} (h : data ≠ []) : angles data ≠ [] := by
  unfold angles; simpa using h

private lemma rows_facts (data : Layout) :
    (((levelsA data).map (rowOf data)).map fun g => (g.length : ℝ)).sum = (angles data).length ∧
      (((levelsA data).map (rowOf data)).map fun g => resultant g).sum = resultant (angles data) :=
  partition_facts data (fun d => d.2.1) (levelsA data) (List.nodup_dedup _)
    (fun d hd => List.mem_dedup.2 (List.mem_map.2 ⟨d, hd, rfl⟩)) (rowOf data) fun _ _ => rfl

private lemma cols_facts (data : Layout) :
    (((levelsB data).map (colOf data)).map fun g => (g.length : ℝ)).sum = (angles data).length ∧
      (((levelsB data).map (colOf data)).map fun g => resultant g).sum = resultant (angles data) :=
  partition_facts data (fun d => d.2.2) (levelsB data) (List.nodup_dedup _)
    (fun d hd => List.mem_dedup.2 (List.mem_map.2 ⟨d, hd, rfl⟩)) (colOf data) fun _ _ => rfl

private lemma cells_product (data : Layout) :
    cells data = ((levelsA data).product (levelsB data)).map fun c => cellAt data c.1 c.2 := by
  unfold cells List.product
  rw [List.map_flatMap]
  congr 1
  funext p
  rw [List.map_map]; rfl

private lemma cells_facts (data : Layout) :
    ((cells data).map fun g => (g.length : ℝ)).sum = (angles data).length ∧
      ((cells data).map fun g => resultant g).sum = resultant (angles data) := by
  rw [cells_product]
  refine partition_facts data (fun d => (d.2.1, d.2.2)) _ ((List.nodup_dedup _).product (List.nodup_dedup _))
    (fun d hd => List.mem_product.2 ⟨List.mem_dedup.2 (List.mem_map.2 ⟨d, hd, rfl⟩),
      List.mem_dedup.2 (List.mem_map.2 ⟨d, hd, rfl⟩)⟩) _ ?_
  intro c _
  unfold cellAt
  congr 1
  apply List.filter_congr
  intro d _
  simp [Prod.ext_iff]

private lemma length_cells (data : Layout) :
    ((cells data).length : ℝ) = (levelsA data).length * (levelsB data).length := by
  rw [cells_product, List.length_map]; exact_mod_cast List.length_product _ _

private lemma within_sum (gs : List (List ℝ)) (h : ∀ g ∈ gs, g ≠ []) : (gs.map within).sum
    = (gs.map fun g => (g.length : ℝ)).sum - (gs.map fun g => ‖resultant g‖ ^ 2 / g.length).sum := by
  induction gs with
  | nil => simp
  | cons g gs ih =>
    simp only [List.map_cons, List.sum_cons]
    rw [ih fun g hg => h g (by simp [hg]), within_eq g (h g (by simp))]
    ring

private lemma length_pos_levels {data : Layout} (h : data ≠ []) :
    0 < (levelsA data).length ∧ 0 < (levelsB data).length := by
  obtain ⟨d, rest, rfl⟩ := List.exists_cons_of_ne_nil h
  exact ⟨List.length_pos_of_mem (List.mem_dedup.2 (List.mem_map.2 ⟨d, by simp, rfl⟩)),
    List.length_pos_of_mem (List.mem_dedup.2 (List.mem_map.2 ⟨d, by simp, rfl⟩))⟩

private lemma total_eq {data : Layout} (h : data ≠ []) :
    ((groupR (data.map Prod.fst)).bind fun tr => pydiv (tr ^ 2) data.length)
      = some (‖resultant (angles data)‖ ^ 2 / (angles data).length) := by
  have hl : (data.length : ℝ) ≠ 0 := by
    have := List.length_pos_iff.2 h
    positivity
  rw [show data.map Prod.fst = angles data from rfl, groupR_some (angles_ne h), Option.bind_some, pydiv,
    if_neg hl]
  simp [angles]

private lemma within_nonneg (g : List ℝ) : 0 ≤ within g := by
  unfold within
  apply List.sum_nonneg
  intro x hx
  obtain ⟨a, -, rfl⟩ := List.mem_map.1 hx
  positivity

private lemma between_nonneg (gs : List (List ℝ)) (c : ℂ) : 0 ≤ between gs c := by
  unfold between
  apply List.sum_nonneg
  intro x hx
  obtain ⟨a, -, rfl⟩ := List.mem_map.1 hx
  positivity

/-! ### Properties -/

/-- The large-kappa table with interaction, for a layout without empty cells: the two main effects are
the dispersions of the row and column mean vectors about the grand mean vector, the residual is the
dispersion of the observations about their cell mean vectors, the total is the dispersion about the
grand mean vector; main effects and residual are non-negative, and the four parts add up to the total.
So do the degrees of freedom. -/
theorem C48_decomposition (data : List (ℝ × ℤ × ℤ)) (kk : ℝ) (fcdf : ℝ → ℝ → ℝ → ℝ) (hd : data ≠ [])
    (hc : ∀ g ∈ cells data, g ≠ []) :
    ∃ ssA ssB ssI ssR ssT dA dB dI dR dT : ℝ,
      (hkLarge data true kk fcdf).ss = [some ssA, some ssB, some ssI, some ssR, some ssT] ∧
      (hkLarge data true kk fcdf).df = [some dA, some dB, some dI, some dR, some dT] ∧
      ssA = between ((levelsA data).map (rowOf data)) (meanVec (angles data)) ∧ 0 ≤ ssA ∧
      ssB = between ((levelsB data).map (colOf data)) (meanVec (angles data)) ∧ 0 ≤ ssB ∧
      ssR = ((cells data).map within).sum ∧ 0 ≤ ssR ∧
      ssT = within (angles data) ∧
      ssA + ssB + ssI + ssR = ssT ∧
      dA = (levelsA data).length - 1 ∧ dB = (levelsB data).length - 1 ∧ dI = dA * dB ∧
      dR = data.length - (levelsA data).length * (levelsB data).length ∧ dT = data.length - 1 ∧
      dA + dB + dI + dR = dT := by
  have hal := angles_ne hd
  have hlen : (angles data).length = data.length := by simp [angles]
  obtain ⟨hp, hq⟩ := length_pos_levels hd
  have hpq : ((levelsA data).length : ℝ) * (levelsB data).length ≠ 0 := by positivity
  have hA := between_eq ((levelsA data).map (rowOf data)) (angles data) hal
    (by intro g hg; obtain ⟨p, hp, rfl⟩ := List.mem_map.1 hg; exact row_ne hp)
    (rows_facts data).1 (rows_facts data).2
  have hB := between_eq ((levelsB data).map (colOf data)) (angles data) hal
    (by intro g hg; obtain ⟨p, hp, rfl⟩ := List.mem_map.1 hg; exact col_ne hp)
    (cols_facts data).1 (cols_facts data).2
  have hW := within_sum (cells data) hc
  rw [(cells_facts data).1] at hW
  have hT := within_eq _ hal
  unfold hkLarge
  simp only [hkA_eq, hkB_eq, hkC_eq data hc, total_eq hd, if_true, Option.bind_some, Option.map_some]
  rw [show levels (data.map fun d => d.2.1) = levelsA data from rfl,
    show levels (data.map fun d => d.2.2) = levelsB data from rfl,
    show pydiv (data.length : ℝ) (((levelsA data).length : ℝ) * (levelsB data).length) = some _ from if_neg hpq,
    Option.map_some]
  refine ⟨_, _, _, _, _, _, _, _, _, _, rfl, rfl, hA.symm, hA ▸ between_nonneg _ _, hB.symm,
    hB ▸ between_nonneg _ _, ?_, ?_, ?_, ?_, rfl, rfl, rfl, ?_, rfl, ?_⟩
  · rw [hW, hlen]
  · rw [← hlen, ← hW]
    exact List.sum_nonneg fun x hx => by obtain ⟨g, -, rfl⟩ := List.mem_map.1 hx; exact within_nonneg g
  · rw [hT, hlen]
  · ring
  · field_simp
  · field_simp
    ring

/-- An empty cell makes interaction and residual `nan`. -/
theorem C48_empty_cell (data : List (ℝ × ℤ × ℤ)) (kk : ℝ) (fcdf : ℝ → ℝ → ℝ → ℝ) (h : [] ∈ cells data) :
    let t := hkLarge data true kk fcdf
    t.ss[2]? = some none ∧ t.ss[3]? = some none ∧ t.F = [none, none, none] := by
  have : hkC data = none := by unfold hkC; rw [cells_eq, sumRsq_none h]
  unfold hkLarge
  simp [this, odiv]

/-- Without interaction the three sums of squares add up to the total. -/
theorem C48_no_interaction (data : List (ℝ × ℤ × ℤ)) (kk : ℝ) (fcdf : ℝ → ℝ → ℝ → ℝ) (hd : data ≠ []) :
    ∃ ssA ssB ssR ssT dA dB dR dT : ℝ,
      (hkLarge data false kk fcdf).ss = [some ssA, some ssB, none, some ssR, some ssT] ∧
      (hkLarge data false kk fcdf).df = [some dA, some dB, none, some dR, some dT] ∧
      ssA = between ((levelsA data).map (rowOf data)) (meanVec (angles data)) ∧
      ssB = between ((levelsB data).map (colOf data)) (meanVec (angles data)) ∧
      ssT = within (angles data) ∧ ssA + ssB + ssR = ssT ∧
      dA = (levelsA data).length - 1 ∧ dB = (levelsB data).length - 1 ∧ dR = dA * dB ∧ dT = data.length - 1 ∧
      (dA + dB + dR = dT ↔ data.length = (levelsA data).length * (levelsB data).length) := by
  have hal := angles_ne hd
  have hlen : (angles data).length = data.length := by simp [angles]
  have hA := between_eq ((levelsA data).map (rowOf data)) (angles data) hal
    (by intro g hg; obtain ⟨p, hp, rfl⟩ := List.mem_map.1 hg; exact row_ne hp)
    (rows_facts data).1 (rows_facts data).2
  have hB := between_eq ((levelsB data).map (colOf data)) (angles data) hal
    (by intro g hg; obtain ⟨p, hp, rfl⟩ := List.mem_map.1 hg; exact col_ne hp)
    (cols_facts data).1 (cols_facts data).2
  have hT := within_eq _ hal
  unfold hkLarge
  simp only [hkA_eq, hkB_eq, total_eq hd, Bool.false_eq_true, if_false, Option.bind_some, Option.map_some]
  rw [show levels (data.map fun d => d.2.1) = levelsA data from rfl,
    show levels (data.map fun d => d.2.2) = levelsB data from rfl]
  refine ⟨_, _, _, _, _, _, _, _, rfl, rfl, hA.symm, hB.symm, ?_, ?_, rfl, rfl, rfl, rfl, ?_⟩
  · rw [hT, hlen]
  · ring
  · have e : ((levelsA data).length : ℝ) - 1 + ((levelsB data).length - 1)
        + ((levelsA data).length - 1) * ((levelsB data).length - 1)
        = ((levelsA data).length * (levelsB data).length : ℕ) - 1 := by push_cast; ring
    rw [e, sub_left_inj, Nat.cast_inj]
    exact eq_comm

/-! ### Balanced layouts -/

private lemma sum_map_re {α : Type} (l : List α) (f : α → ℂ) : ((l.map f).sum).re = (l.map fun x => (f x).re).sum ∧
    ((l.map f).sum).im = (l.map fun x => (f x).im).sum := by
  induction l with
  | nil => simp
  | cons a l ih => simp [ih.1, ih.2]

private lemma row_cells (data : Layout) (p : ℤ) :
    (((levelsB data).map fun q => ((cellAt data p q).length : ℝ)).sum = (rowOf data p).length) ∧
      ((levelsB data).map fun q => resultant (cellAt data p q)).sum = resultant (rowOf data p) := by
  have hf : ∀ q, cellAt data p q = (((data.filter fun d => d.2.1 = p).filter fun d => d.2.2 = q).map fun d => d.1) := by
    intro q
    unfold cellAt
    rw [List.filter_filter]
    congr 1
    apply List.filter_congr
    intro d _
    simp [Bool.and_comm]
  have hk : ∀ d ∈ data.filter fun d => d.2.1 = p, d.2.2 ∈ levelsB data := fun d hd =>
    List.mem_dedup.2 (List.mem_map.2 ⟨d, (List.mem_filter.1 hd).1, rfl⟩)
  constructor
  · rw [rowOf, sum_len, ← sum_partition _ (fun d : ℝ × ℤ × ℤ => d.2.2) (levelsB data) (List.nodup_dedup _) hk]
    congr 1
    exact List.map_congr_left fun q _ => by rw [hf, sum_len]
  · rw [rowOf, res_sum, ← sum_partition _ (fun d : ℝ × ℤ × ℤ => d.2.2) (levelsB data) (List.nodup_dedup _) hk]
    congr 1
    exact List.map_congr_left fun q _ => by rw [hf, res_sum]

private lemma col_cells (data : Layout) (q : ℤ) :
    (((levelsA data).map fun p => ((cellAt data p q).length : ℝ)).sum = (colOf data q).length) ∧
      ((levelsA data).map fun p => resultant (cellAt data p q)).sum = resultant (colOf data q) := by
  have hf : ∀ p, cellAt data p q = (((data.filter fun d => d.2.2 = q).filter fun d => d.2.1 = p).map fun d => d.1) := by
    intro p
    unfold cellAt
    rw [List.filter_filter]
    congr 1
    apply List.filter_congr
    intro d _
    simp
  have hk : ∀ d ∈ data.filter fun d => d.2.2 = q, d.2.1 ∈ levelsA data := fun d hd =>
    List.mem_dedup.2 (List.mem_map.2 ⟨d, (List.mem_filter.1 hd).1, rfl⟩)
  constructor
  · rw [colOf, sum_len, ← sum_partition _ (fun d : ℝ × ℤ × ℤ => d.2.1) (levelsA data) (List.nodup_dedup _) hk]
    congr 1
    exact List.map_congr_left fun q _ => by rw [hf, sum_len]
  · rw [colOf, res_sum, ← sum_partition _ (fun d : ℝ × ℤ × ℤ => d.2.1) (levelsA data) (List.nodup_dedup _) hk]
    congr 1
    exact List.map_congr_left fun q _ => by rw [hf, res_sum]

private lemma anova_identity {ι κ : Type} [DecidableEq ι] [DecidableEq κ] (A : Finset ι) (B : Finset κ)
    (x : ι → κ → ℝ) (a : ι → ℝ) (b : κ → ℝ) (g : ℝ)
    (hr : ∀ i ∈ A, ∑ j ∈ B, x i j = B.card * a i) (hc : ∀ j ∈ B, ∑ i ∈ A, x i j = A.card * b j)
    (ha : ∑ i ∈ A, a i = A.card * g) (hb : ∑ j ∈ B, b j = B.card * g) :
    ∑ i ∈ A, ∑ j ∈ B, (x i j - a i - b j + g) ^ 2
      = (∑ i ∈ A, ∑ j ∈ B, x i j ^ 2) - B.card * (∑ i ∈ A, a i ^ 2) - A.card * (∑ j ∈ B, b j ^ 2)
        + A.card * B.card * g ^ 2 := by
  have inner : ∀ i ∈ A, ∑ j ∈ B, (x i j - a i - b j + g) ^ 2
      = ∑ j ∈ B, x i j ^ 2 - B.card * a i ^ 2 + ∑ j ∈ B, b j ^ 2 - B.card * g ^ 2
        - 2 * (∑ j ∈ B, x i j * b j) + 2 * g * B.card * a i := by
    intro i hi
    have : ∀ j ∈ B, (x i j - a i - b j + g) ^ 2 = x i j ^ 2 + b j ^ 2 + (a i ^ 2 + g ^ 2 - 2 * a i * g)
        - 2 * (x i j * b j) + (2 * g - 2 * a i) * x i j + (2 * a i - 2 * g) * b j := fun j _ => by ring
    rw [Finset.sum_congr rfl this]
    simp only [Finset.sum_add_distrib, Finset.sum_sub_distrib, ← Finset.mul_sum, Finset.sum_const, nsmul_eq_mul]
    rw [hr i hi, hb]
    ring
  rw [Finset.sum_congr rfl inner]
  simp only [Finset.sum_add_distrib, Finset.sum_sub_distrib, ← Finset.mul_sum, Finset.sum_const, nsmul_eq_mul]
  rw [ha, Finset.sum_comm (f := fun i j => x i j * b j)]
  have : ∑ j ∈ B, ∑ i ∈ A, x i j * b j = A.card * ∑ j ∈ B, b j ^ 2 := by
    rw [Finset.mul_sum]
    refine Finset.sum_congr rfl fun j hj => ?_
    rw [← Finset.sum_mul, hc j hj]; ring
  rw [this]
  ring

/-- Interaction in a balanced layout: dispersion of the cell mean vectors about what the row and column
mean vectors predict. -/
noncomputable def interaction (data : List (ℝ × ℤ × ℤ)) (m : ℕ) : ℝ :=
  m * ((levelsA data).map fun p => ((levelsB data).map fun q =>
    ‖meanVec (cellAt data p q) - meanVec (rowOf data p) - meanVec (colOf data q) + meanVec (angles data)‖ ^ 2).sum).sum

private lemma interaction_nonneg (data : List (ℝ × ℤ × ℤ)) (m : ℕ) : 0 ≤ interaction data m := by
  unfold interaction
  refine mul_nonneg (by positivity) (List.sum_nonneg fun x hx => ?_)
  obtain ⟨p, -, rfl⟩ := List.mem_map.1 hx
  refine List.sum_nonneg fun x hx => ?_
  obtain ⟨q, -, rfl⟩ := List.mem_map.1 hx
  positivity

private lemma interaction_eq (data : Layout) (m : ℕ) (hm : 0 < m) (hd : data ≠ [])
    (hc : ∀ g ∈ cells data, g.length = m) : interaction data m
      = ((cells data).map fun g => ‖resultant g‖ ^ 2 / (g.length : ℝ)).sum
        - (((levelsB data).map (colOf data)).map fun g => ‖resultant g‖ ^ 2 / (g.length : ℝ)).sum
        - (((levelsA data).map (rowOf data)).map fun g => ‖resultant g‖ ^ 2 / (g.length : ℝ)).sum
        + ‖resultant (angles data)‖ ^ 2 / (angles data).length := by
  obtain ⟨hP, hQ⟩ := length_pos_levels hd
  set P : ℝ := ((levelsA data).length : ℝ) with hPdef
  set Q : ℝ := ((levelsB data).length : ℝ) with hQdef
  have hP0 : P ≠ 0 := by rw [hPdef]; positivity
  have hQ0 : Q ≠ 0 := by rw [hQdef]; positivity
  have hm0 : (m : ℝ) ≠ 0 := by positivity
  have ndA : (levelsA data).Nodup := List.nodup_dedup _
  have ndB : (levelsB data).Nodup := List.nodup_dedup _
  have cA : ((levelsA data).toFinset.card : ℝ) = P := by rw [List.toFinset_card_of_nodup ndA]
  have cB : ((levelsB data).toFinset.card : ℝ) = Q := by rw [List.toFinset_card_of_nodup ndB]
  have sA : ∀ f : ℤ → ℝ, ((levelsA data).map f).sum = ∑ i ∈ (levelsA data).toFinset, f i :=
    fun f => (List.sum_toFinset f ndA).symm
  have sB : ∀ f : ℤ → ℝ, ((levelsB data).map f).sum = ∑ i ∈ (levelsB data).toFinset, f i :=
    fun f => (List.sum_toFinset f ndB).symm
  have hcell : ∀ p ∈ levelsA data, ∀ q ∈ levelsB data, (cellAt data p q).length = m := by
    intro p hp q hq
    exact hc _ (List.mem_flatMap.2 ⟨p, hp, List.mem_map.2 ⟨q, hq, rfl⟩⟩)
  have hrow : ∀ p ∈ levelsA data, ((rowOf data p).length : ℝ) = Q * m := by
    intro p hp
    rw [← (row_cells data p).1, List.map_congr_left fun q hq => by rw [hcell p hp q hq]]
    simp [hQdef]
  have hcol : ∀ q ∈ levelsB data, ((colOf data q).length : ℝ) = P * m := by
    intro q hq
    rw [← (col_cells data q).1, List.map_congr_left fun p hp => by rw [hcell p hp q hq]]
    simp [hPdef]
  have hN : ((angles data).length : ℝ) = P * Q * m := by
    rw [← (rows_facts data).1, List.map_map]
    have : ((levelsA data).map ((fun g : List ℝ => (g.length : ℝ)) ∘ rowOf data))
        = (levelsA data).map fun _ => Q * m := List.map_congr_left fun p hp => hrow p hp
    rw [this]
    simp [← hPdef]
    ring
  have key : ∀ (π' : ℂ → ℝ) (_ : ∀ (α : Type) (l : List α) (f : α → ℂ), π' ((l.map f).sum) = (l.map fun x => π' (f x)).sum)
      (_ : ∀ (z : ℂ) (r : ℝ), π' (z / r) = π' z / r),
      ((levelsA data).map fun p => ((levelsB data).map fun q => (π' (meanVec (cellAt data p q))
        - π' (meanVec (rowOf data p)) - π' (meanVec (colOf data q)) + π' (meanVec (angles data))) ^ 2).sum).sum
      = ((levelsA data).map fun p => ((levelsB data).map fun q => π' (meanVec (cellAt data p q)) ^ 2).sum).sum
        - Q * ((levelsA data).map fun p => π' (meanVec (rowOf data p)) ^ 2).sum
        - P * ((levelsB data).map fun q => π' (meanVec (colOf data q)) ^ 2).sum
        + P * Q * π' (meanVec (angles data)) ^ 2 := by
    intro π' hs hdv
    simp only [sA, sB]
    rw [anova_identity _ _ (fun p q => π' (meanVec (cellAt data p q))) (fun p => π' (meanVec (rowOf data p)))
      (fun q => π' (meanVec (colOf data q))) (π' (meanVec (angles data))), cA, cB]
    · intro p hp
      have hp := List.mem_toFinset.1 hp
      rw [cB, ← sB, List.map_congr_left fun q hq => by rw [meanVec, hcell p hp q hq, hdv, div_eq_mul_inv],
        List.sum_map_mul_right, meanVec, hdv, hrow p hp, ← (row_cells data p).2, hs]
      field_simp
    · intro q hq
      have hq := List.mem_toFinset.1 hq
      rw [cA, ← sA, List.map_congr_left fun p hp => by rw [meanVec, hcell p hp q hq, hdv, div_eq_mul_inv],
        List.sum_map_mul_right, meanVec, hdv, hcol q hq, ← (col_cells data q).2, hs]
      field_simp
    · rw [cA, ← sA, List.map_congr_left fun p hp => by rw [meanVec, hdv, hrow p hp, div_eq_mul_inv],
        List.sum_map_mul_right, meanVec, hdv, hN, ← (rows_facts data).2, List.map_map, hs]
      simp only [Function.comp_apply]
      field_simp
    · rw [cB, ← sB, List.map_congr_left fun p hp => by rw [meanVec, hdv, hcol p hp, div_eq_mul_inv],
        List.sum_map_mul_right, meanVec, hdv, hN, ← (cols_facts data).2, List.map_map, hs]
      simp only [Function.comp_apply]
      field_simp
  have kre := key Complex.re (fun α l f => (sum_map_re l f).1) (fun z r => Complex.div_ofReal_re z r)
  have kim := key Complex.im (fun α l f => (sum_map_re l f).2) (fun z r => Complex.div_ofReal_im z r)
  have hcellsum : ((cells data).map fun g => ‖resultant g‖ ^ 2 / (g.length : ℝ)).sum
      = m * ((levelsA data).map fun p => ((levelsB data).map fun q => ‖meanVec (cellAt data p q)‖ ^ 2).sum).sum := by
    unfold cells
    rw [List.map_flatMap, List.flatMap_def, List.sum_flatten, List.map_map, ← List.sum_map_mul_left]
    congr 1
    refine List.map_congr_left fun p hp => ?_
    rw [← List.sum_map_mul_left, Function.comp_apply, List.map_map]
    congr 1
    refine List.map_congr_left fun q hq => ?_
    simp only [Function.comp_apply]
    rw [meanVec, hcell p hp q hq, norm_div, Complex.norm_real, norm_eq_abs, abs_of_pos (by positivity)]
    field_simp
  have hrowsum : (((levelsA data).map (rowOf data)).map fun g => ‖resultant g‖ ^ 2 / (g.length : ℝ)).sum
      = Q * m * ((levelsA data).map fun p => ‖meanVec (rowOf data p)‖ ^ 2).sum := by
    rw [← List.sum_map_mul_left, List.map_map]
    congr 1
    refine List.map_congr_left fun p hp => ?_
    simp only [Function.comp_apply]
    rw [meanVec, hrow p hp, norm_div, Complex.norm_real, norm_eq_abs, abs_of_pos (by positivity)]
    field_simp
  have hcolsum : (((levelsB data).map (colOf data)).map fun g => ‖resultant g‖ ^ 2 / (g.length : ℝ)).sum
      = P * m * ((levelsB data).map fun p => ‖meanVec (colOf data p)‖ ^ 2).sum := by
    rw [← List.sum_map_mul_left, List.map_map]
    congr 1
    refine List.map_congr_left fun p hp => ?_
    simp only [Function.comp_apply]
    rw [meanVec, hcol p hp, norm_div, Complex.norm_real, norm_eq_abs, abs_of_pos (by positivity)]
    field_simp
  have hall : ‖resultant (angles data)‖ ^ 2 / (angles data).length = P * Q * m * ‖meanVec (angles data)‖ ^ 2 := by
    rw [meanVec, hN, norm_div, Complex.norm_real, norm_eq_abs, abs_of_pos (by positivity)]
    field_simp
  rw [hcellsum, hrowsum, hcolsum, hall]
  unfold interaction
  simp only [nsq, Complex.add_re, Complex.add_im, Complex.sub_re, Complex.sub_im, List.sum_map_add]
  rw [kre, kim]
  ring

/-- In a balanced layout (the same number of observations in every cell) the interaction is the
dispersion of the cell mean vectors about the additive prediction, so it is non-negative; and without
interaction the residual is the sum of this and the dispersion within cells. -/
theorem C48_balanced (data : List (ℝ × ℤ × ℤ)) (m : ℕ) (kk : ℝ) (fcdf : ℝ → ℝ → ℝ → ℝ) (hd : data ≠ [])
    (hm : 0 < m) (hc : ∀ g ∈ cells data, g.length = m) :
    (hkLarge data true kk fcdf).ss[2]? = some (some (interaction data m)) ∧ 0 ≤ interaction data m ∧
      (hkLarge data false kk fcdf).ss[3]? = some (some (interaction data m + ((cells data).map within).sum)) ∧
      0 ≤ interaction data m + ((cells data).map within).sum := by
  have hne : ∀ g ∈ cells data, g ≠ [] := by
    intro g hg h; have := hc g hg; rw [h] at this; simp at this; omega
  have hW := within_sum (cells data) hne
  rw [(cells_facts data).1] at hW
  have hlen : (angles data).length = data.length := by simp [angles]
  have hI := interaction_eq data m hm hd hc
  refine ⟨?_, interaction_nonneg data m, ?_, add_nonneg (interaction_nonneg data m)
    (List.sum_nonneg fun x hx => by obtain ⟨g, -, rfl⟩ := List.mem_map.1 hx; exact within_nonneg g)⟩
  · unfold hkLarge
    simp only [hkA_eq, hkB_eq, hkC_eq data hne, total_eq hd, if_true, Option.bind_some, Option.map_some]
    rw [hI]; rfl
  · unfold hkLarge
    simp only [hkA_eq, hkB_eq, total_eq hd, Bool.false_eq_true, if_false, Option.bind_some, Option.map_some]
    rw [hI, hW, hlen]
    simp only [List.getElem?_cons_succ, List.getElem?_cons_zero, Option.some.injEq]
    ring

/-- With unequal cell sizes the interaction sum of squares, and with it the F statistic, can be
negative. The layout below has no empty cell and is concentrated enough for this table. -/
theorem C48_interaction_negative (fcdf : ℝ → ℝ → ℝ → ℝ) (chi2 : ℝ → ℝ → ℝ) (ratio : ℝ → ℝ) :
    ∃ (data : List (ℝ × ℤ × ℤ)) (t : HKTable) (x : ℝ), (∀ g ∈ cells data, g ≠ []) ∧
      harrisonKanji data true fcdf chi2 ratio = some (.inl t) ∧ t.ss[2]? = some (some x) ∧ x < 0 := by
  set data : List (ℝ × ℤ × ℤ) := [(0, 0, 0), (0, 0, 0), (0, 0, 1), (π / 3, 1, 0), (π / 3, 1, 1), (π / 3, 1, 1)]
    with hdata
  have hA : levelsA data = [0, 1] := by simp [levelsA, hdata]
  have hB : levelsB data = [0, 1] := by simp [levelsB, hdata]
  have hcells : cells data = [[0, 0], [0], [π / 3], [π / 3, π / 3]] := by
    unfold cells
    rw [hA, hB]
    simp [cellAt, hdata]
  have hrows : (levelsA data).map (rowOf data) = [[0, 0, 0], [π / 3, π / 3, π / 3]] := by
    rw [hA]; simp [rowOf, hdata]
  have hcols : (levelsB data).map (colOf data) = [[0, 0, π / 3], [0, π / 3, π / 3]] := by
    rw [hB]; simp [colOf, hdata]
  have hall : angles data = [0, 0, 0, π / 3, π / 3, π / 3] := by simp [angles, hdata]
  have hs3 : sqrt 3 ^ 2 = 3 := sq_sqrt (by norm_num)
  have hnorm : ∀ a b : ℕ, ‖resultant (List.replicate a 0 ++ List.replicate b (π / 3))‖ ^ 2
      = (a : ℝ) ^ 2 + a * b + b ^ 2 := by
    intro a b
    have : resultant (List.replicate a 0 ++ List.replicate b (π / 3)) = (a : ℂ) + b * uvec (π / 3) := by
      rw [resultant_uvec, List.map_append, List.sum_append, List.map_replicate, List.map_replicate,
        List.sum_replicate, List.sum_replicate, nsmul_eq_mul, nsmul_eq_mul]
      simp [uvec]
    rw [this, nsq]
    unfold uvec
    simp only [Complex.add_re, Complex.add_im, Complex.mul_re, Complex.mul_im, exp_re, exp_im,
      Complex.natCast_re, Complex.natCast_im, cos_pi_div_three, sin_pi_div_three]
    linear_combination ((b : ℝ) ^ 2 / 4) * hs3
  have hne : ∀ g ∈ cells data, g ≠ [] := by rw [hcells]; simp
  have hd : data ≠ [] := by simp [hdata]
  have n1 : ‖resultant [0, 0]‖ ^ 2 = 4 := (hnorm 2 0).trans (by norm_num)
  have n2 : ‖resultant [0]‖ ^ 2 = 1 := (hnorm 1 0).trans (by norm_num)
  have n3 : ‖resultant [π / 3]‖ ^ 2 = 1 := (hnorm 0 1).trans (by norm_num)
  have n4 : ‖resultant [π / 3, π / 3]‖ ^ 2 = 4 := (hnorm 0 2).trans (by norm_num)
  have n5 : ‖resultant [0, 0, 0]‖ ^ 2 = 9 := (hnorm 3 0).trans (by norm_num)
  have n6 : ‖resultant [π / 3, π / 3, π / 3]‖ ^ 2 = 9 := (hnorm 0 3).trans (by norm_num)
  have n7 : ‖resultant [0, 0, π / 3]‖ ^ 2 = 7 := (hnorm 2 1).trans (by norm_num)
  have n8 : ‖resultant [0, π / 3, π / 3]‖ ^ 2 = 7 := (hnorm 1 2).trans (by norm_num)
  have n9 : ‖resultant [0, 0, 0, π / 3, π / 3, π / 3]‖ ^ 2 = 27 := (hnorm 3 3).trans (by norm_num)
  have n9' : ‖resultant [0, 0, 0, π / 3, π / 3, π / 3]‖ = 3 * sqrt 3 := by
    rw [← abs_of_nonneg (norm_nonneg _), ← sqrt_sq_eq_abs, n9, show (27 : ℝ) = (3 * sqrt 3) ^ 2 by
      rw [mul_pow, hs3]; norm_num, sqrt_sq (by positivity)]
  have hkk : ∃ kk, hkKappa data = some kk ∧ 2 < kk := by
    refine ⟨circKappa (sqrt 3 / 2) none, ?_, ?_⟩
    · unfold hkKappa
      rw [show data.map Prod.fst = angles data from rfl, groupR_some (angles_ne hd), hall, n9', Option.map_some]
      congr 2
      simp only [hdata, List.length_cons, List.length_nil]
      norm_num
      ring
    · have l1 : 1.73 < sqrt 3 := by rw [lt_sqrt (by norm_num)]; norm_num
      have l2 : sqrt 3 < 1.74 := by rw [sqrt_lt' (by norm_num)]; norm_num
      have e : (sqrt 3 / 2) ^ 3 - 4 * (sqrt 3 / 2) ^ 2 + 3 * (sqrt 3 / 2) = 15 * sqrt 3 / 8 - 3 := by
        linear_combination (sqrt 3 / 8 - 1) * hs3
      have hp : 0 < 15 * sqrt 3 / 8 - 3 := by norm_num at l1; linarith
      unfold circKappa kappaRaw
      simp only
      rw [if_neg (by norm_num at l1 ⊢; linarith), if_neg (by norm_num at l1 ⊢; linarith), e, if_pos hp.ne']
      rw [lt_div_iff₀ hp]
      norm_num at l2
      linarith
  obtain ⟨kk, hk1, hk2⟩ := hkk
  refine ⟨data, hkLarge data true kk fcdf, -1 / 6, hne, ?_, ?_, by norm_num⟩
  · unfold harrisonKanji
    rw [hk1, Option.map_some, if_pos hk2]
  · unfold hkLarge
    simp only [hkA_eq, hkB_eq, hkC_eq data hne, total_eq hd, if_true, Option.bind_some, Option.map_some]
    rw [hrows, hcols, hcells, hall]
    simp only [List.map_cons, List.map_nil, List.sum_cons, List.sum_nil, n1, n2, n3, n4, n5, n6, n7, n8, n9,
      List.getElem?_cons_succ, List.getElem?_cons_zero, Option.some.injEq, List.length_cons, List.length_nil]
    norm_num

/-! ### Branches and invariance -/

/-- Which table is produced, and the meaning of the low-concentration table: twice the row (column)
effect over `1 - rr²`, non-negative. -/
theorem C48_small (data : List (ℝ × ℤ × ℤ)) (rr : ℝ) (chi2 : ℝ → ℝ → ℝ) (hd : data ≠ []) (h0 : 0 ≤ rr) (h1 : rr < 1) :
    ∃ (xA xB dA dB : ℝ) (rest : Option ℝ × ℝ × Option ℝ),
      hkSmall data rr chi2 = [(some xA, dA, some (1 - chi2 xA dA)), (some xB, dB, some (1 - chi2 xB dB)), rest] ∧
      dA = 2 * ((levelsA data).length - 1) ∧ dB = 2 * ((levelsB data).length - 1) ∧
      xA = 2 / (1 - rr ^ 2) * between ((levelsA data).map (rowOf data)) (meanVec (angles data)) ∧
      xB = 2 / (1 - rr ^ 2) * between ((levelsB data).map (colOf data)) (meanVec (angles data)) ∧
      0 ≤ xA ∧ 0 ≤ xB := by
  have hal := angles_ne hd
  have hrr : 0 < 1 - rr ^ 2 := by nlinarith
  have hA := between_eq ((levelsA data).map (rowOf data)) (angles data) hal
    (by intro g hg; obtain ⟨p, hp, rfl⟩ := List.mem_map.1 hg; exact row_ne hp)
    (rows_facts data).1 (rows_facts data).2
  have hB := between_eq ((levelsB data).map (colOf data)) (angles data) hal
    (by intro g hg; obtain ⟨p, hp, rfl⟩ := List.mem_map.1 hg; exact col_ne hp)
    (cols_facts data).1 (cols_facts data).2
  unfold hkSmall
  simp only [hkA_eq, hkB_eq, total_eq hd, Option.bind_some, Option.map_some]
  rw [show levels (data.map fun d => d.2.1) = levelsA data from rfl,
    show levels (data.map fun d => d.2.2) = levelsB data from rfl,
    show pydiv 2 (1 - rr ^ 2) = some _ from if_neg hrr.ne', ← hA, ← hB]
  simp only [Option.bind_some, Option.map_some]
  refine ⟨_, _, _, _, _, rfl, rfl, rfl, rfl, rfl, ?_, ?_⟩
  · exact mul_nonneg (by positivity) (between_nonneg _ _)
  · exact mul_nonneg (by positivity) (between_nonneg _ _)

/-- The interaction row of the low-concentration table, for a balanced layout: twice the dispersion of the cell
mean vectors about the additive prediction over `1 - rr²`, non-negative, with `(p - 1)(q - 1)` degrees of freedom. -/
theorem C48_small_interaction (data : List (ℝ × ℤ × ℤ)) (m : ℕ) (rr : ℝ) (chi2 : ℝ → ℝ → ℝ) (hd : data ≠ [])
    (hm : 0 < m) (hc : ∀ g ∈ cells data, g.length = m) (h0 : 0 ≤ rr) (h1 : rr < 1) :
    ∃ xI dI : ℝ, (hkSmall data rr chi2)[2]? = some (some xI, dI, some (1 - chi2 xI dI)) ∧
      dI = ((levelsA data).length - 1) * ((levelsB data).length - 1) ∧
      xI = 2 / (1 - rr ^ 2) * interaction data m ∧ 0 ≤ xI := by
  have hne : ∀ g ∈ cells data, g ≠ [] := by
    intro g hg h; have := hc g hg; rw [h] at this; simp at this; omega
  have hrr : 0 < 1 - rr ^ 2 := by nlinarith
  have hI := interaction_eq data m hm hd hc
  refine ⟨2 / (1 - rr ^ 2) * interaction data m, _, ?_, rfl, rfl,
    mul_nonneg (by positivity) (interaction_nonneg data m)⟩
  unfold hkSmall
  simp only [hkA_eq, hkB_eq, hkC_eq data hne, total_eq hd, Option.bind_some, Option.map_some]
  rw [show levels (data.map fun d => d.2.1) = levelsA data from rfl,
    show levels (data.map fun d => d.2.2) = levelsB data from rfl,
    show pydiv 2 (1 - rr ^ 2) = some _ from if_neg hrr.ne']
  simp only [Option.bind_some, Option.map_some, List.getElem?_cons_succ, List.getElem?_cons_zero]
  rw [hI, show ∀ a b c d : ℝ, a - b - c + d = a - c - b + d from fun _ _ _ _ => by ring]

/-- With an empty cell the interaction row of the low-concentration table is `nan`. -/
theorem C48_small_empty_cell (data : List (ℝ × ℤ × ℤ)) (rr : ℝ) (chi2 : ℝ → ℝ → ℝ) (h : [] ∈ cells data) :
    ∃ dI : ℝ, (hkSmall data rr chi2)[2]? = some (none, dI, none) ∧
      dI = ((levelsA data).length - 1) * ((levelsB data).length - 1) := by
  have hC : hkC data = none := by unfold hkC; rw [cells_eq, sumRsq_none h]
  refine ⟨_, ?_, rfl⟩
  unfold hkSmall
  simp only [hC, Option.bind_none, List.getElem?_cons_succ, List.getElem?_cons_zero]
  cases pydiv 2 (1 - rr ^ 2) <;> rfl

/-- At low concentration (an estimated concentration of at most 2) the argument `inter` is ignored: the same three rows
(A, B and an interaction) are reported in either case. -/
theorem C48_small_ignores_inter (data : List (ℝ × ℤ × ℤ)) (hd : data ≠ []) (fcdf : ℝ → ℝ → ℝ → ℝ) (chi2 : ℝ → ℝ → ℝ)
    (ratio : ℝ → ℝ) (h : circKappa (‖resultant (angles data)‖ / data.length) none ≤ 2) :
    ∃ rows, rows.length = 3 ∧ ∀ inter, harrisonKanji data inter fcdf chi2 ratio = some (.inr rows) := by
  have hk : hkKappa data = some (circKappa (‖resultant (angles data)‖ / data.length) none) := by
    unfold hkKappa
    rw [groupR_some (by simpa using hd)]
    rfl
  refine ⟨hkSmall data (ratio (circKappa (‖resultant (angles data)‖ / data.length) none)) chi2, rfl, fun inter => ?_⟩
  unfold harrisonKanji
  rw [hk, Option.map_some, if_neg (by linarith)]

private lemma groupR_rotate {a b : List ℝ} (t : ℝ) (h : List.Forall₂ (fun a b => SameDir b (a + t)) a b) :
    groupR b = groupR a := by
  by_cases ha : a = []
  · subst ha; cases h; rfl
  · have hb : b ≠ [] := by rintro rfl; cases h; exact ha rfl
    rw [groupR_some ha, groupR_some hb, norm_resultant_rotate t h]

/-- Turning all observations by one angle changes nothing. -/
theorem C48_rotate (data data' : List (ℝ × ℤ × ℤ)) (t : ℝ) (inter : Bool) (fcdf : ℝ → ℝ → ℝ → ℝ) (chi2 : ℝ → ℝ → ℝ)
    (ratio : ℝ → ℝ) (h : List.Forall₂ (fun d d' => d'.2 = d.2 ∧ SameDir d'.1 (d.1 + t)) data data') :
    harrisonKanji data' inter fcdf chi2 ratio = harrisonKanji data inter fcdf chi2 ratio := by
  have hlab : ∀ (β : Type) (f : ℤ × ℤ → β), (data'.map fun d => f d.2) = data.map fun d => f d.2 := by
    intro β f
    induction h with
    | nil => rfl
    | cons hab _ ih => rw [List.map_cons, List.map_cons, ih, hab.1]
  have hsel : ∀ P : ℤ × ℤ → Bool, List.Forall₂ (fun a b => SameDir b (a + t)) (cellOf data P) (cellOf data' P) := by
    intro P
    clear hlab
    unfold cellOf
    induction h with
    | nil => exact List.Forall₂.nil
    | @cons d d' _ _ hab _ ih =>
      rw [List.filter_cons, List.filter_cons, hab.1]
      split_ifs
      · exact List.Forall₂.cons hab.2 ih
      · exact ih
  have hfst : List.Forall₂ (fun a b => SameDir b (a + t)) (data.map Prod.fst) (data'.map Prod.fst) := by
    have := hsel fun _ => true
    simpa [cellOf] using this
  have hR : ∀ P, ((groupR (cellOf data' P)).bind fun R => pydiv (R ^ 2) (cellOf data' P).length)
      = (groupR (cellOf data P)).bind fun R => pydiv (R ^ 2) (cellOf data P).length := by
    intro P
    rw [groupR_rotate t (hsel P), (hsel P).length_eq]
  have hA : hkA data' = hkA data := by
    unfold hkA sumRsq
    rw [hlab ℤ fun k => k.1, List.mapM_map, List.mapM_map]
    simp only [Function.comp_def, hR]
  have hB : hkB data' = hkB data := by
    unfold hkB sumRsq
    rw [hlab ℤ fun k => k.2, List.mapM_map, List.mapM_map]
    simp only [Function.comp_def, hR]
  have hC : hkC data' = hkC data := by
    unfold hkC sumRsq
    rw [hlab ℤ fun k => k.1, hlab ℤ fun k => k.2, List.mapM_map, List.mapM_map]
    simp only [Function.comp_def, hR]
  have hk : hkKappa data' = hkKappa data := by
    unfold hkKappa
    rw [groupR_rotate t hfst, h.length_eq]
  have hl : ∀ kk, hkLarge data' inter kk fcdf = hkLarge data inter kk fcdf := by
    intro kk
    unfold hkLarge
    simp only [hA, hB, hC, hlab ℤ fun k => k.1, hlab ℤ fun k => k.2, groupR_rotate t hfst, h.length_eq]
  have hs : ∀ rr, hkSmall data' rr chi2 = hkSmall data rr chi2 := by
    intro rr
    unfold hkSmall
    simp only [hA, hB, hC, hlab ℤ fun k => k.1, hlab ℤ fun k => k.2, groupR_rotate t hfst, h.length_eq]
  unfold harrisonKanji
  rw [hk]
  simp only [hl, hs]

/-- A balanced layout: the hypotheses of `C48_balanced` and `C48_decomposition` can be met. -/
example : ∀ g ∈ cells [(0, 0, 0), (1, 0, 1), (2, 1, 0), (3, 1, 1), (1, 0, 0), (2, 0, 1), (3, 1, 0), (4, 1, 1)],
    g.length = 2 := by
  simp [cells, levelsA, levelsB, cellAt]

/-! ### Order of the observations, names of the levels, order of the factors -/

private noncomputable def sizeR (g : List ℝ) : ℕ × ℝ := (g.length, ‖resultant g‖ ^ 2 / g.length)

private lemma sizeR_perm {g g' : List ℝ} (h : g.Perm g') : sizeR g = sizeR g' := by
  unfold sizeR resultant
  rw [h.length_eq, (h.map _).sum_eq]

private lemma sumRsq_congr {gs gs' : List (List ℝ)} (h : (gs.map sizeR).Perm (gs'.map sizeR)) : sumRsq gs = sumRsq gs' := by
  have hnil : ∀ {gs gs' : List (List ℝ)}, (gs.map sizeR).Perm (gs'.map sizeR) → [] ∈ gs → [] ∈ gs' := by
    intro gs gs' h hm
    have h1 : sizeR [] ∈ gs'.map sizeR := h.mem_iff.1 (List.mem_map.2 ⟨[], hm, rfl⟩)
    obtain ⟨g, hg, he⟩ := List.mem_map.1 h1
    have : g.length = 0 := congrArg Prod.fst he
    rwa [List.length_eq_zero_iff.1 this] at hg
  by_cases hm : [] ∈ gs
  · rw [sumRsq_none hm, sumRsq_none (hnil h hm)]
  · have hm' : [] ∉ gs' := fun h' => hm (hnil h.symm h')
    rw [sumRsq_eq (fun g hg h0 => hm (h0 ▸ hg)), sumRsq_eq (fun g hg h0 => hm' (h0 ▸ hg))]
    have := (h.map Prod.snd).sum_eq
    rw [List.map_map, List.map_map] at this
    exact congrArg some this

/-- The same observations in another order, the levels renamed. -/
def Renamed (f g : ℤ → ℤ) (data data' : List (ℝ × ℤ × ℤ)) : Prop :=
  data'.Perm (data.map fun d => (d.1, f d.2.1, g d.2.2))

private lemma levels_renamed {f : ℤ → ℤ} (hf : Function.Injective f) {l l' : List ℤ} (h : l'.Perm (l.map f)) :
    l'.dedup.Perm (l.dedup.map f) := by
  rw [← List.dedup_map_of_injective hf]
  exact h.dedup

private lemma select_renamed {f g : ℤ → ℤ} {data data' : List (ℝ × ℤ × ℤ)} (h : Renamed f g data data')
    (P Q : ℝ × ℤ × ℤ → Bool) (hPQ : ∀ d, P (d.1, f d.2.1, g d.2.2) = Q d) :
    ((data'.filter P).map fun d => d.1).Perm ((data.filter Q).map fun d => d.1) := by
  refine ((h.filter P).map _).trans ?_
  rw [List.filter_map, List.map_map]
  have : P ∘ (fun d => (d.1, f d.2.1, g d.2.2)) = Q := funext hPQ
  rw [this]
  exact List.Perm.refl _

private lemma cells_prod (data : Layout) :
    cells data = ((levelsA data).product (levelsB data)).map fun c => cellAt data c.1 c.2 := by
  unfold cells List.product
  rw [List.map_flatMap]
  simp only [List.map_map]
  rfl

private lemma parts_eq {data data' : Layout} {inter : Bool} {fcdf : ℝ → ℝ → ℝ → ℝ} {chi2 : ℝ → ℝ → ℝ} {ratio : ℝ → ℝ}
    (hA : hkA data' = hkA data) (hB : hkB data' = hkB data) (hC : hkC data' = hkC data)
    (ha : (levelsA data').length = (levelsA data).length) (hb : (levelsB data').length = (levelsB data).length)
    (hp : (data'.map Prod.fst).Perm (data.map Prod.fst)) :
    harrisonKanji data' inter fcdf chi2 ratio = harrisonKanji data inter fcdf chi2 ratio := by
  have hl : data'.length = data.length := by simpa using hp.length_eq
  have hr : groupR (data'.map Prod.fst) = groupR (data.map Prod.fst) := by
    have e := sizeR_perm hp
    by_cases h0 : data.map Prod.fst = []
    · rw [h0] at hp ⊢
      rw [List.Perm.eq_nil hp]
    · have h0' : data'.map Prod.fst ≠ [] := fun h => h0 (by rw [h] at hp; exact hp.symm.eq_nil)
      rw [groupR_some h0, groupR_some h0']
      unfold resultant
      rw [(hp.map _).sum_eq]
  have ha' : (levels (data'.map fun d => d.2.1)).length = (levels (data.map fun d => d.2.1)).length := ha
  have hb' : (levels (data'.map fun d => d.2.2)).length = (levels (data.map fun d => d.2.2)).length := hb
  have hk : hkKappa data' = hkKappa data := by
    unfold hkKappa
    rw [hr, hl]
  have h1 : ∀ kk, hkLarge data' inter kk fcdf = hkLarge data inter kk fcdf := fun kk => by
    unfold hkLarge
    simp only [hA, hB, hC, ha', hb', hr, hl]
  have h2 : ∀ rr, hkSmall data' rr chi2 = hkSmall data rr chi2 := fun rr => by
    unfold hkSmall
    simp only [hA, hB, hC, ha', hb', hr, hl]
  unfold harrisonKanji
  rw [hk]
  simp only [h1, h2]

/-- Neither the order of the observations nor the names (and so the order) of the levels of the two factors matter. -/
theorem C48_order (data data' : List (ℝ × ℤ × ℤ)) (f g : ℤ → ℤ) (hf : Function.Injective f) (hg : Function.Injective g)
    (h : Renamed f g data data') (inter : Bool) (fcdf : ℝ → ℝ → ℝ → ℝ) (chi2 : ℝ → ℝ → ℝ) (ratio : ℝ → ℝ) :
    harrisonKanji data' inter fcdf chi2 ratio = harrisonKanji data inter fcdf chi2 ratio := by
  have hA : (levelsA data').Perm ((levelsA data).map f) := by
    unfold levelsA
    refine levels_renamed hf ((h.map _).trans ?_)
    rw [List.map_map, List.map_map]
    exact List.Perm.refl _
  have hB : (levelsB data').Perm ((levelsB data).map g) := by
    unfold levelsB
    refine levels_renamed hg ((h.map _).trans ?_)
    rw [List.map_map, List.map_map]
    exact List.Perm.refl _
  refine parts_eq ?_ ?_ ?_ (by simpa using hA.length_eq) (by simpa using hB.length_eq) ?_
  · unfold hkA
    rw [rows_eq, rows_eq]
    apply sumRsq_congr
    rw [List.map_map, List.map_map]
    refine (hA.map _).trans ?_
    rw [List.map_map]
    refine List.Perm.of_eq (List.map_congr_left fun p _ => sizeR_perm ?_)
    exact select_renamed h _ _ fun d => by simp [hf.eq_iff]
  · unfold hkB
    rw [cols_eq, cols_eq]
    apply sumRsq_congr
    rw [List.map_map, List.map_map]
    refine (hB.map _).trans ?_
    rw [List.map_map]
    refine List.Perm.of_eq (List.map_congr_left fun p _ => sizeR_perm ?_)
    exact select_renamed h _ _ fun d => by simp [hg.eq_iff]
  · unfold hkC
    rw [cells_eq, cells_eq, cells_prod, cells_prod]
    apply sumRsq_congr
    rw [List.map_map, List.map_map]
    refine ((hA.product hB).map _).trans ?_
    have : ((levelsA data).map f).product ((levelsB data).map g)
        = ((levelsA data).product (levelsB data)).map fun c => (f c.1, g c.2) := by
      unfold List.product
      rw [List.flatMap_map, List.map_flatMap]
      simp only [List.map_map]
      rfl
    rw [this, List.map_map]
    refine List.Perm.of_eq (List.map_congr_left fun p _ => sizeR_perm ?_)
    exact select_renamed h _ _ fun d => by simp [hf.eq_iff, hg.eq_iff]
  · refine (h.map _).trans ?_
    rw [List.map_map]
    exact List.Perm.refl _

/-- The first two entries exchanged. -/
def swapTwo {α : Type} : List α → List α
  | a :: b :: l => b :: a :: l
  | l => l

/-- Which factor is called the first does not matter: exchanging the factors exchanges the two main effects and leaves
interaction, residual and total. -/
theorem C48_swap (data : List (ℝ × ℤ × ℤ)) (inter : Bool) (fcdf : ℝ → ℝ → ℝ → ℝ) (chi2 : ℝ → ℝ → ℝ) (ratio : ℝ → ℝ) :
    harrisonKanji (data.map fun d => (d.1, d.2.2, d.2.1)) inter fcdf chi2 ratio =
      (harrisonKanji data inter fcdf chi2 ratio).map (Sum.map
        (fun t => ⟨swapTwo t.ss, swapTwo t.df, swapTwo t.F, swapTwo t.p⟩) swapTwo) := by
  obtain ⟨data', hd⟩ : ∃ data', data' = data.map fun d : ℝ × ℤ × ℤ => (d.1, d.2.2, d.2.1) := ⟨_, rfl⟩
  rw [← hd]
  have hsel : ∀ P : ℝ × ℤ × ℤ → Bool, (data'.filter P).map (fun d => d.1)
      = (data.filter fun d => P (d.1, d.2.2, d.2.1)).map fun d => d.1 := fun P => by
    rw [hd, List.filter_map, List.map_map]
    rfl
  have la : levelsA data' = levelsB data := by
    unfold levelsA levelsB
    rw [hd, List.map_map]
    rfl
  have lb : levelsB data' = levelsA data := by
    unfold levelsA levelsB
    rw [hd, List.map_map]
    rfl
  have hA : hkA data' = hkB data := by
    unfold hkA hkB
    rw [rows_eq, cols_eq, la]
    congr 1
    refine List.map_congr_left fun p _ => ?_
    exact hsel _
  have hB : hkB data' = hkA data := by
    unfold hkA hkB
    rw [rows_eq, cols_eq, lb]
    congr 1
    refine List.map_congr_left fun p _ => ?_
    exact hsel _
  have hC : hkC data' = hkC data := by
    unfold hkC
    rw [cells_eq, cells_eq, cells_prod, cells_prod, la, lb]
    apply sumRsq_congr
    rw [List.map_map, List.map_map]
    have hp : ((levelsB data).product (levelsA data)).Perm (((levelsA data).product (levelsB data)).map Prod.swap) := by
      refine (List.perm_ext_iff_of_nodup ((List.nodup_dedup _).product (List.nodup_dedup _))
        (((List.nodup_dedup _).product (List.nodup_dedup _)).map Prod.swap_injective)).2 fun c => ?_
      have hm : ∀ (l₁ l₂ : List ℤ) (c : ℤ × ℤ), c ∈ l₁ ×ˢ l₂ ↔ c.1 ∈ l₁ ∧ c.2 ∈ l₂ := fun l₁ l₂ c =>
        List.mem_product (l₁ := l₁) (l₂ := l₂) (a := c.1) (b := c.2)
      rw [List.mem_map, hm]
      simp only [hm, Prod.exists]
      constructor
      · rintro ⟨h1, h2⟩; exact ⟨c.2, c.1, ⟨h2, h1⟩, rfl⟩
      · rintro ⟨a, b, ⟨h1, h2⟩, rfl⟩; exact ⟨h2, h1⟩
    refine (hp.map _).trans ?_
    rw [List.map_map]
    refine List.Perm.of_eq (List.map_congr_left fun c _ => sizeR_perm (List.Perm.of_eq ?_))
    simp only [cellAt, hsel]
    congr 2
    funext d
    simp [and_comm]
  have hf : data'.map Prod.fst = data.map Prod.fst := by
    rw [hd, List.map_map]
    rfl
  have hl : data'.length = data.length := by rw [hd, List.length_map]
  have la' : levels (data'.map fun d => d.2.1) = levels (data.map fun d => d.2.2) := la
  have lb' : levels (data'.map fun d => d.2.2) = levels (data.map fun d => d.2.1) := lb
  have hk : hkKappa data' = hkKappa data := by
    unfold hkKappa
    rw [hf, hl]
  obtain ⟨p, hp⟩ : ∃ p : ℝ, p = (levels (data.map fun d => d.2.1)).length := ⟨_, rfl⟩
  obtain ⟨q, hq⟩ : ∃ q : ℝ, q = (levels (data.map fun d => d.2.2)).length := ⟨_, rfl⟩
  have h2 : ∀ rr, hkSmall data' rr chi2 = swapTwo (hkSmall data rr chi2) := fun rr => by
    unfold hkSmall
    simp only [hA, hB, hC, la', lb', hf, hl, ← hp, ← hq, swapTwo, mul_comm (q - 1) (p - 1)]
    cases hkA data <;> cases hkB data <;> cases hkC data <;>
      simp only [Option.bind_none, Option.bind_some, sub_right_comm]
  have h1 : ∀ kk, hkLarge data' inter kk fcdf =
      ⟨swapTwo (hkLarge data inter kk fcdf).ss, swapTwo (hkLarge data inter kk fcdf).df,
        swapTwo (hkLarge data inter kk fcdf).F, swapTwo (hkLarge data inter kk fcdf).p⟩ := fun kk => by
    unfold hkLarge
    simp only [hA, hB, hC, la', lb', hf, hl, ← hp, ← hq, swapTwo, mul_comm (q - 1) (p - 1), mul_comm q p]
    cases hkA data <;> cases hkB data <;> cases hkC data <;>
      simp only [Option.bind_none, Option.bind_some, Option.map_none, Option.map_some, sub_right_comm]
  unfold harrisonKanji
  rw [hk, Option.map_map]
  congr 1
  funext kk
  simp only [Function.comp_apply]
  split_ifs
  · rw [h1]; rfl
  · rw [h2]; rfl

/-- Three observations with the levels of the first factor renamed and the order changed. -/
example : Renamed (fun x => 1 - x) id [(0, 0, 0), (1, 1, 0), (2, 1, 1)] [(2, 0, 1), (0, 1, 0), (1, 0, 0)] := by
  unfold Renamed
  norm_num
  exact (List.perm_append_comm (l₁ := [((2 : ℝ), (0 : ℤ), (1 : ℤ))]) (l₂ := [(0, 1, 0), (1, 0, 0)]))

end Verif.Props
