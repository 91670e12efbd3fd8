import Verif.Model.Clustering
import Verif.Lemmas.Descriptive
import Mathlib.Data.List.Perm.Basic
import Mathlib.Data.List.Nodup

/-! # Helper lemmas about the hierarchical clustering loop -/

set_option autoImplicit false

namespace Verif

open Real

lemma mem_listPairs {α : Type} : ∀ {l : List α} {x y : α}, (x, y) ∈ listPairs l ↔ [x, y].Sublist l
  | [], x, y => by simp [listPairs]
  | z :: zs, x, y => by
    rw [listPairs, List.mem_append, mem_listPairs, List.mem_map]
    constructor
    · rintro (⟨w, hw, h⟩ | h)
      · obtain ⟨rfl, rfl⟩ := Prod.mk.inj h
        exact List.Sublist.cons_cons _ (List.singleton_sublist.2 hw)
      · exact h.cons _
    · intro h
      cases h with
      | cons _ h => exact Or.inr h
      | cons_cons _ h => exact Or.inl ⟨y, List.singleton_sublist.1 h, rfl⟩

/-- The fold of `bestPair` over any list of pairs and any start. -/
lemma bestPair_fold {α : Type} (dist : α → α → Option ℝ) : ∀ (ps : List (α × α)) (b0 : Option (ℝ × α × α)),
    (∀ d x y, b0 = some (d, x, y) → dist x y = some d) →
    match ps.foldl (pairStep dist) b0 with
    | none => b0 = none ∧ ∀ p ∈ ps, dist p.1 p.2 = none
    | some (d, x, y) => dist x y = some d ∧ ((x, y) ∈ ps ∨ b0 = some (d, x, y)) ∧
        (∀ b, b0 = some b → d ≤ b.1) ∧ ∀ p ∈ ps, ∀ d', dist p.1 p.2 = some d' → d ≤ d'
  | [], b0, hb => by
    simp only [List.foldl_nil]
    match b0, hb with
    | none, _ => simp
    | some (d, x, y), hb => simpa using hb d x y rfl
  | p :: ps, b0, hb => by
    rw [List.foldl_cons]
    have key : ∀ b1 : Option (ℝ × α × α), (∀ d x y, b1 = some (d, x, y) → dist x y = some d) →
        (b1 = none → b0 = none ∧ dist p.1 p.2 = none) →
        (∀ b, b1 = some b → (b = (b.1, p) ∨ b0 = some b) ∧ (∀ b', b0 = some b' → b.1 ≤ b'.1) ∧
          ∀ d', dist p.1 p.2 = some d' → b.1 ≤ d') →
        match ps.foldl (pairStep dist) b1 with
        | none => b0 = none ∧ ∀ p' ∈ p :: ps, dist p'.1 p'.2 = none
        | some (d, x, y) => dist x y = some d ∧ ((x, y) ∈ p :: ps ∨ b0 = some (d, x, y)) ∧
          (∀ b, b0 = some b → d ≤ b.1) ∧ ∀ p' ∈ p :: ps, ∀ d', dist p'.1 p'.2 = some d' → d ≤ d' := by
      intro b1 h1 h2 h3
      have ih := bestPair_fold dist ps b1 h1
      generalize ps.foldl (pairStep dist) b1 = res at ih
      match res, ih with
      | none, ih =>
        simp only at ih ⊢
        obtain ⟨e1, e2⟩ := h2 ih.1
        exact ⟨e1, fun p' hp' => (List.mem_cons.1 hp').elim (fun e => by rw [e]; exact e2) (ih.2 p')⟩
      | some (d, x, y), ih =>
        simp only at ih ⊢
        obtain ⟨i1, i2, i3, i4⟩ := ih
        match b1, h2, h3, i2, i3 with
        | none, h2, _, i2, _ =>
          obtain ⟨e1, e2⟩ := h2 rfl
          refine ⟨i1, Or.inl (List.mem_cons_of_mem _ (i2.resolve_right (by simp))), fun b hb => ?_, ?_⟩
          · rw [e1] at hb
            simp at hb
          · intro p' hp' d' hd'
            rcases List.mem_cons.1 hp' with rfl | hp'
            · rw [e2] at hd'
              simp at hd'
            · exact i4 p' hp' d' hd'
        | some b, _, h3, i2, i3 =>
          obtain ⟨f1, f2, f3⟩ := h3 b rfl
          have hle := i3 b rfl
          refine ⟨i1, ?_, fun b' hb' => le_trans hle (f2 b' hb'), ?_⟩
          · rcases i2 with i2 | i2
            · exact Or.inl (List.mem_cons_of_mem _ i2)
            · have e := Option.some.inj i2
              rcases f1 with f1 | f1
              · left
                rw [e] at f1
                have : (x, y) = p := (Prod.mk.inj f1).2
                rw [this]
                exact List.mem_cons_self
              · right
                rw [f1, e]
          · intro p' hp' d' hd'
            rcases List.mem_cons.1 hp' with rfl | hp'
            · exact le_trans hle (f3 d' hd')
            · exact i4 p' hp' d' hd'
    cases hd : dist p.1 p.2 with
    | none =>
      rw [show pairStep dist b0 p = b0 by simp [pairStep, hd]]
      refine key b0 hb (fun h => ⟨h, hd⟩) (fun b h => ⟨Or.inr h, fun b' h' => ?_, fun d' h' => ?_⟩)
      · rw [h] at h'
        rw [Option.some.inj h']
      · rw [hd] at h'
        simp at h'
    | some d =>
      match b0, hb with
      | none, hb =>
        rw [show pairStep dist none p = some (d, p) by simp [pairStep, hd]]
        refine key (some (d, p)) ?_ (by simp) ?_
        · intro d' x y h
          obtain ⟨rfl, rfl⟩ := Prod.mk.inj (Option.some.inj h)
          exact hd
        · intro b h
          obtain rfl := Option.some.inj h
          exact ⟨Or.inl rfl, by simp, fun d' h' => by rw [hd] at h'; exact (Option.some.inj h').le⟩
      | some b0, hb =>
        rw [show pairStep dist (some b0) p = if d < b0.1 then some (d, p) else some b0 by simp [pairStep, hd]]
        by_cases hlt : d < b0.1
        · rw [if_pos hlt]
          refine key (some (d, p)) ?_ (by simp) ?_
          · intro d' x y h
            obtain ⟨rfl, rfl⟩ := Prod.mk.inj (Option.some.inj h)
            exact hd
          · intro b h
            obtain rfl := Option.some.inj h
            refine ⟨Or.inl rfl, fun b' h' => ?_, fun d' h' => ?_⟩
            · rw [← Option.some.inj h']
              exact hlt.le
            · rw [hd] at h'
              exact (Option.some.inj h').le
        · rw [if_neg hlt]
          refine key (some b0) hb (by simp) ?_
          intro b h
          obtain rfl := Option.some.inj h
          refine ⟨Or.inr rfl, fun b' h' => by rw [Option.some.inj h'], fun d' h' => ?_⟩
          rw [hd] at h'
          rw [← Option.some.inj h']
          exact not_lt.1 hlt

lemma bestPair_some {α : Type} {dist : α → α → Option ℝ} {l : List α} {d : ℝ} {x y : α}
    (h : bestPair dist l = some (d, x, y)) :
    dist x y = some d ∧ [x, y].Sublist l ∧
      ∀ x' y', [x', y'].Sublist l → ∀ d', dist x' y' = some d' → d ≤ d' := by
  have := bestPair_fold dist (listPairs l) none (by simp)
  rw [bestPair] at h
  rw [h] at this
  obtain ⟨h1, h2, -, h4⟩ := this
  exact ⟨h1, mem_listPairs.1 (h2.resolve_right (by simp)), fun x' y' hs d' hd' =>
    h4 (x', y') (mem_listPairs.2 hs) d' hd'⟩

lemma bestPair_none {α : Type} {dist : α → α → Option ℝ} {l : List α} (h : bestPair dist l = none) :
    ∀ x y, [x, y].Sublist l → dist x y = none := by
  have := bestPair_fold dist (listPairs l) none (by simp)
  rw [bestPair] at h
  rw [h] at this
  exact fun x y hs => this.2 (x, y) (mem_listPairs.2 hs)

/-- Removing the entry with a given key. -/
lemma perm_filter_key {l : List Cluster} (hn : (l.map Prod.fst).Nodup) {x : Cluster} (hx : x ∈ l) :
    l.Perm (x :: l.filter fun c => c.1 ≠ x.1) := by
  induction l with
  | nil => simp at hx
  | cons z zs ih =>
    rw [List.map_cons, List.nodup_cons] at hn
    rcases List.mem_cons.1 hx with rfl | hx
    · have : (x :: zs).filter (fun c => c.1 ≠ x.1) = zs := by
        rw [List.filter_cons_of_neg (by simp), List.filter_eq_self]
        intro c hc
        simp only [ne_eq, decide_not, Bool.not_eq_eq_eq_not, Bool.not_true, decide_eq_false_iff_not]
        intro e
        exact hn.1 (e ▸ List.mem_map_of_mem hc)
      rw [this]
    · have hne : z.1 ≠ x.1 := fun e => hn.1 (e ▸ List.mem_map_of_mem hx)
      rw [List.filter_cons_of_pos (by simpa using hne)]
      exact ((ih hn.2 hx).cons z).trans (List.Perm.swap _ _ _)

lemma perm_filter_two {l : List Cluster} (hn : (l.map Prod.fst).Nodup) {x y : Cluster} (hs : [x, y].Sublist l) :
    x.1 ≠ y.1 ∧ l.Perm (x :: y :: l.filter fun c => c.1 ≠ x.1 ∧ c.1 ≠ y.1) := by
  have hne : x.1 ≠ y.1 := by
    have := (hs.map Prod.fst).nodup hn
    simpa using this
  refine ⟨hne, ?_⟩
  have hx : x ∈ l := hs.subset (by simp)
  have hy : y ∈ l := hs.subset (by simp)
  have h1 := perm_filter_key hn hx
  have hn2 : ((l.filter fun c => c.1 ≠ x.1).map Prod.fst).Nodup :=
    (List.filter_sublist.map Prod.fst).nodup hn
  have hy2 : y ∈ l.filter fun c => c.1 ≠ x.1 := by
    rw [List.mem_filter]
    exact ⟨hy, by simpa using hne.symm⟩
  have h2 := perm_filter_key hn2 hy2
  refine h1.trans (List.Perm.cons _ ?_)
  rw [List.filter_filter] at h2
  refine h2.trans (List.Perm.of_eq ?_)
  congr 1
  refine List.filter_congr fun c _ => ?_
  rw [Bool.decide_and, Bool.and_comm]

/-- The clusters form a partition of `0, …, n-1`, under distinct ids below `next`. -/
structure ClusterInv (n next : ℕ) (cl : List Cluster) : Prop where
  nodup : (cl.map Prod.fst).Nodup
  lt : ∀ c ∈ cl, c.1 < next
  ne : ∀ c ∈ cl, c.2 ≠ []
  perm : (cl.map Prod.snd).flatten.Perm (List.range n)

lemma ClusterInv.merge {n next : ℕ} {cl : List Cluster} (h : ClusterInv n next cl) {x y : Cluster}
    (hs : [x, y].Sublist cl) :
    ClusterInv n (next + 1) ((cl.filter fun c => c.1 ≠ x.1 ∧ c.1 ≠ y.1) ++ [(next, x.2 ++ y.2)]) ∧
      ((cl.filter fun c => c.1 ≠ x.1 ∧ c.1 ≠ y.1) ++ [(next, x.2 ++ y.2)]).length + 1 = cl.length ∧
      x ∈ cl ∧ y ∈ cl ∧ x.1 ≠ y.1 ∧ ∀ c, c ∈ (cl.filter fun c => c.1 ≠ x.1 ∧ c.1 ≠ y.1) ++ [(next, x.2 ++ y.2)] ↔
        (c ∈ cl ∧ c ≠ x ∧ c ≠ y) ∨ c = (next, x.2 ++ y.2) := by
  obtain ⟨hne, hp⟩ := perm_filter_two h.nodup hs
  have hx : x ∈ cl := hs.subset (by simp)
  have hy : y ∈ cl := hs.subset (by simp)
  have hkey : ∀ c ∈ cl, ∀ z ∈ cl, c.1 = z.1 → c = z := fun c hc z hz e =>
    List.inj_on_of_nodup_map h.nodup hc hz e
  refine ⟨⟨?_, ?_, ?_, ?_⟩, ?_, hx, hy, hne, ?_⟩
  · rw [List.map_append, List.nodup_append]
    refine ⟨(List.filter_sublist.map Prod.fst).nodup h.nodup, by simp, ?_⟩
    intro a ha b hb
    simp only [List.map_cons, List.map_nil, List.mem_singleton] at hb
    obtain ⟨c, hc, rfl⟩ := List.mem_map.1 ha
    rw [hb]
    exact (h.lt c (List.mem_of_mem_filter hc)).ne
  · intro c hc
    rcases List.mem_append.1 hc with hc | hc
    · exact lt_trans (h.lt c (List.mem_of_mem_filter hc)) (Nat.lt_succ_self _)
    · rw [List.mem_singleton.1 hc]
      exact Nat.lt_succ_self _
  · intro c hc
    rcases List.mem_append.1 hc with hc | hc
    · exact h.ne c (List.mem_of_mem_filter hc)
    · rw [List.mem_singleton.1 hc]
      simp [h.ne x hx]
  · refine List.Perm.trans ?_ h.perm
    refine List.Perm.trans ?_ ((hp.map Prod.snd).flatten).symm
    simp only [List.map_append, List.map_cons, List.map_nil, List.flatten_append, List.flatten_cons, List.flatten_nil,
      List.append_nil]
    rw [← List.append_assoc x.2]
    exact List.perm_append_comm
  · have := hp.length_eq
    simp only [List.length_cons, List.length_append, List.length_nil] at this ⊢
    omega
  · intro c
    rw [List.mem_append, List.mem_singleton, List.mem_filter]
    refine or_congr_left (and_congr_right fun hc => ?_)
    simp only [ne_eq, decide_eq_true_eq]
    exact and_congr (not_congr ⟨hkey c hc x hx, fun e => by rw [e]⟩) (not_congr ⟨hkey c hc y hy, fun e => by rw [e]⟩)

end Verif
