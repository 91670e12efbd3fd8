import Verif.Model.TextInput
import Mathlib.Tactic.Linarith
import Mathlib.Tactic.NormNum

/-! # C120, C121: text input -/

set_option autoImplicit false

namespace Verif.Props

open Real Verif

/-! ## Splitting -/

lemma splitChar_none {c : Char} : ∀ {w : List Char}, c ∉ w → splitChar c w = [w]
  | [], _ => rfl
  | a :: w, h => by
    simp only [List.mem_cons, not_or] at h
    rw [splitChar, if_neg (Ne.symm h.1), splitChar_none h.2]

lemma splitChar_cons {c : Char} {s : List Char} : ∀ {w : List Char}, c ∉ w →
    splitChar c (w ++ c :: s) = w :: splitChar c s
  | [], _ => by simp [splitChar]
  | a :: w, h => by
    simp only [List.mem_cons, not_or] at h
    rw [List.cons_append, splitChar, if_neg (Ne.symm h.1), splitChar_cons h.2]

lemma splitChar_length (c : Char) : ∀ s : List Char, (splitChar c s).length = s.count c + 1
  | [] => rfl
  | a :: s => by
    rw [splitChar]
    have ih := splitChar_length c s
    by_cases h : a = c
    · rw [if_pos h, List.length_cons, ih, h, List.count_cons_self]
    · rw [if_neg h, List.count_cons_of_ne h]
      cases hs : splitChar c s with
      | nil => rw [hs] at ih; simp at ih
      | cons w ws => rw [hs] at ih; simpa using ih

/-! ## C120: times of day -/

/-- Specification: the number written by decimal digits. -/
def decimal (ds : List Char) : ℕ := ds.foldl (fun n d => 10 * n + (d.toNat - '0'.toNat)) 0

/-- Specification: `float` reads non-empty strings of decimal digits, also with a minus sign. -/
structure ReadsDecimals (pyFloat : List Char → Except PyErr ℝ) : Prop where
  pos : ∀ ds : List Char, ds ≠ [] → (∀ d ∈ ds, d.isDigit) → pyFloat ds = .ok (decimal ds)
  neg : ∀ ds : List Char, ds ≠ [] → (∀ d ∈ ds, d.isDigit) → pyFloat ('-' :: ds) = .ok (-(decimal ds : ℝ))

/-- Specification: a non-empty string of decimal digits. -/
def IsNumeral (ds : List Char) : Prop := ds ≠ [] ∧ ∀ d ∈ ds, d.isDigit

private lemma sep_not_mem {sep : Char} (hs : sep.isDigit = false) {ds : List Char} (h : IsNumeral ds) : sep ∉ ds :=
  fun hm => by simpa [hs] using h.2 sep hm

private lemma t2f_eq {pyFloat : List Char → Except PyErr ℝ} {sep : Char} {h m : List Char} (h1 : sep ∉ h) (h2 : sep ∉ m)
    {x y : ℝ} (hx : pyFloat h = .ok x) (hy : pyFloat m = .ok y) : t2f pyFloat sep (h ++ sep :: m) = .ok (x + y / 60) := by
  rw [t2f, splitChar_cons h1, splitChar_none h2]
  simp only [hx, hy, Except.bind, Except.map]

/-- A list of times `hh:mm` becomes the list of hours with fractions: `hh + mm/60`. With `mm < 60` the hour is the
integer part, times later in the day are larger, and as angles on a 24-hour circle they are `2π` times the share of
the 1440 minutes of a day. -/
theorem C120_times {pyFloat : List Char → Except PyErr ℝ} (hf : ReadsDecimals pyFloat) {sep : Char}
    (hs : sep.isDigit = false) {l : List (List Char × List Char)} (hl : l ≠ [])
    (hn : ∀ t ∈ l, IsNumeral t.1 ∧ IsNumeral t.2) :
    time2float pyFloat sep (l.map fun t => t.1 ++ sep :: t.2) =
        .ok (l.map fun t => (decimal t.1 : ℝ) + decimal t.2 / 60) ∧
      ∀ t ∈ l, decimal t.2 < 60 → ⌊(decimal t.1 : ℝ) + decimal t.2 / 60⌋ = decimal t.1 ∧
        data2rad ((decimal t.1 : ℝ) + decimal t.2 / 60) 24 = 2 * π * ((60 * decimal t.1 + decimal t.2 : ℕ) / 1440) ∧
        ∀ t' ∈ l, decimal t'.2 < 60 →
          ((decimal t.1 : ℝ) + decimal t.2 / 60 < (decimal t'.1 : ℝ) + decimal t'.2 / 60 ↔
            decimal t.1 < decimal t'.1 ∨ decimal t.1 = decimal t'.1 ∧ decimal t.2 < decimal t'.2) := by
  constructor
  · rw [time2float, if_neg (by simpa using hl)]
    clear hl
    induction l with
    | nil => rfl
    | cons t l ih =>
      have h1 := hn t (by simp)
      rw [List.map_cons, List.mapM_cons, t2f_eq (sep_not_mem hs h1.1) (sep_not_mem hs h1.2)
        (hf.pos _ h1.1.1 h1.1.2) (hf.pos _ h1.2.1 h1.2.2), ih fun t ht => hn t (by simp [ht])]
      rfl
  · intro t _ h60
    have h60' : (decimal t.2 : ℝ) < 60 := by exact_mod_cast h60
    have h0 : (0 : ℝ) ≤ decimal t.2 := by positivity
    refine ⟨?_, ?_, fun t' _ h60'' => ?_⟩
    · rw [Int.floor_eq_iff]
      push_cast
      constructor <;> linarith
    · rw [data2rad]
      push_cast
      ring
    · have h0' : (0 : ℝ) ≤ decimal t'.2 := by positivity
      have h61 : (decimal t'.2 : ℝ) < 60 := by exact_mod_cast h60''
      have key : (decimal t.1 : ℝ) + decimal t.2 / 60 < (decimal t'.1 : ℝ) + decimal t'.2 / 60 ↔
          60 * decimal t.1 + decimal t.2 < 60 * decimal t'.1 + decimal t'.2 := by
        rw [← Nat.cast_lt (α := ℝ)]
        push_cast
        constructor <;> intro h <;> linarith
      rw [key]
      omega

/-- A string without the separator, or with two of them (such as `12:30:15`), makes the whole call raise `ValueError`,
provided that the strings before it are read; so does an empty array. -/
theorem C120_refused {pyFloat : List Char → Except PyErr ℝ} {sep : Char} {a b : List (List Char)} {x : List Char}
    (ha : ∀ s ∈ a, ∃ v, t2f pyFloat sep s = .ok v) (hx : x.count sep ≠ 1) :
    time2float pyFloat sep (a ++ x :: b) = .error .valueError ∧ time2float pyFloat sep [] = .error .valueError := by
  refine ⟨?_, if_pos rfl⟩
  rw [time2float, if_neg (by simp)]
  have h1 : t2f pyFloat sep x = .error .valueError := by
    have := splitChar_length sep x
    rw [t2f]
    split
    · rename_i h m he
      rw [he] at this
      simp at this
      omega
    · rfl
  induction a with
  | nil => rw [List.nil_append, List.mapM_cons, h1]; rfl
  | cons s a ih =>
    obtain ⟨v, hv⟩ := ha s (by simp)
    rw [List.cons_append, List.mapM_cons, hv, ]
    have := ih fun s hs => ha s (by simp [hs])
    simp only [bind, Except.bind] at this ⊢
    rw [this]

/-- The minutes of a negative time count forwards, and minutes are not checked: `-1:30` is -0.5, and `12:75` is 13.25. -/
theorem C120_sign {pyFloat : List Char → Except PyErr ℝ} (hf : ReadsDecimals pyFloat) :
    time2float pyFloat ':' ["-1:30".toList] = .ok [-0.5] ∧ time2float pyFloat ':' ["12:75".toList] = .ok [13.25] := by
  have h1 : t2f pyFloat ':' "-1:30".toList = .ok (-0.5) := by
    have := t2f_eq (sep := ':') (h := '-' :: ['1']) (m := ['3', '0']) (by decide) (by decide)
      (hf.neg ['1'] (by simp) (by decide)) (hf.pos ['3', '0'] (by simp) (by decide))
    have e : "-1:30".toList = ('-' :: ['1']) ++ ':' :: ['3', '0'] := by decide
    rw [e, this, show decimal ['1'] = 1 from by decide, show decimal ['3', '0'] = 30 from by decide]
    norm_num
  have h2 : t2f pyFloat ':' "12:75".toList = .ok 13.25 := by
    have := t2f_eq (sep := ':') (h := ['1', '2']) (m := ['7', '5']) (by decide) (by decide)
      (hf.pos ['1', '2'] (by simp) (by decide)) (hf.pos ['7', '5'] (by simp) (by decide))
    have e : "12:75".toList = ['1', '2'] ++ ':' :: ['7', '5'] := by decide
    rw [e, this, show decimal ['1', '2'] = 12 from by decide, show decimal ['7', '5'] = 75 from by decide]
    norm_num
  constructor
  · rw [time2float, if_neg (by simp), List.mapM_cons, h1]; rfl
  · rw [time2float, if_neg (by simp), List.mapM_cons, h2]; rfl

open Classical in
/-- C120: there is such a `float`, and `12:45` is read as 12.75. -/
example : ∃ pyFloat, ReadsDecimals pyFloat ∧ time2float pyFloat ':' ["12:45".toList, "06:30".toList] = .ok [12.75, 6.5] := by
  let f : List Char → Except PyErr ℝ := fun s =>
    if IsNumeral s then .ok (decimal s) else if s.head? = some '-' ∧ IsNumeral s.tail then .ok (-(decimal s.tail : ℝ))
    else .error .valueError
  have hf : ReadsDecimals f := by
    constructor
    · intro ds h1 h2
      exact if_pos ⟨h1, h2⟩
    · intro ds h1 h2
      have h3 : ¬ IsNumeral ('-' :: ds) := fun h => absurd (h.2 '-' (by simp)) (by decide)
      simp only [f]
      rw [if_neg h3, if_pos ⟨rfl, h1, h2⟩]
      rfl
  refine ⟨f, hf, ?_⟩
  have := (C120_times hf (sep := ':') (by decide) (l := [(['1', '2'], ['4', '5']), (['0', '6'], ['3', '0'])]) (by simp)
    (by simp only [IsNumeral]; decide)).1
  rw [show ["12:45".toList, "06:30".toList] =
    [(['1', '2'], ['4', '5']), (['0', '6'], ['3', '0'])].map fun t => t.1 ++ ':' :: t.2 by decide, this]
  simp only [List.map_cons, List.map_nil]
  rw [show decimal ['1', '2'] = 12 from by decide, show decimal ['4', '5'] = 45 from by decide,
    show decimal ['0', '6'] = 6 from by decide, show decimal ['3', '0'] = 30 from by decide]
  norm_num

/-! ## C121: the formula interface -/

/-- Specification: a column name that a formula can mention: no `~` or `+` in it, no whitespace at its ends. -/
structure IsName (ws : Char → Bool) (s : List Char) : Prop where
  tilde : '~' ∉ s
  plus : '+' ∉ s
  head : ∀ c ∈ s.head?, ws c = false
  last : ∀ c ∈ s.getLast?, ws c = false

/-- Specification: `s` is the name `x` between whitespace. -/
def Padded (ws : Char → Bool) (x s : List Char) : Prop :=
  ∃ l r, s = l ++ x ++ r ∧ (∀ c ∈ l, ws c = true) ∧ ∀ c ∈ r, ws c = true

/-- Specification: the terms of a formula, joined by `+`. -/
def joinPlus : List (List Char) → List Char
  | [] => []
  | [s] => s
  | s :: t :: r => s ++ '+' :: joinPlus (t :: r)

private lemma dropWhile_all {p : Char → Bool} {l s : List Char} (h : ∀ c ∈ l, p c = true) :
    (l ++ s).dropWhile p = s.dropWhile p := by
  induction l with
  | nil => rfl
  | cons a l ih =>
    rw [List.cons_append, List.dropWhile_cons_of_pos (h a (by simp)), ih fun c hc => h c (by simp [hc])]

private lemma dropWhile_head {p : Char → Bool} {s : List Char} (h : ∀ c ∈ s.head?, p c = false) :
    s.dropWhile p = s := by
  cases s with
  | nil => rfl
  | cons a s => rw [List.dropWhile_cons_of_neg]; simp [h a (by simp)]

private lemma strip_padded {ws : Char → Bool} {x s : List Char} (hx : IsName ws x) (h : Padded ws x s) :
    strip ws s = x := by
  obtain ⟨l, r, rfl, hl, hr⟩ := h
  cases x with
  | nil =>
    have h1 : (l ++ [] ++ r).dropWhile ws = [] := by
      have := dropWhile_all (p := ws) (l := l ++ [] ++ r) (s := []) (by
        intro c hc
        simp only [List.append_nil, List.mem_append] at hc
        exact hc.elim (hl c) (hr c))
      simpa using this
    rw [strip, h1]
    rfl
  | cons a x =>
    have h1 : (l ++ (a :: x) ++ r).dropWhile ws = (a :: x) ++ r := by
      rw [List.append_assoc, dropWhile_all hl, List.cons_append, List.dropWhile_cons_of_neg]
      simp [hx.head a (by simp)]
    rw [strip, h1, List.reverse_append, dropWhile_all (by simpa using hr), dropWhile_head, List.reverse_reverse]
    intro c hc
    rw [List.head?_reverse] at hc
    exact hx.last c hc

private lemma padded_not_mem {ws : Char → Bool} {x s : List Char} {c : Char} (hc : ws c = false) (hx : c ∉ x)
    (h : Padded ws x s) : c ∉ s := by
  obtain ⟨l, r, rfl, hl, hr⟩ := h
  intro hm
  simp only [List.mem_append] at hm
  rcases hm with (hm | hm) | hm
  · simpa [hc] using hl c hm
  · exact hx hm
  · simpa [hc] using hr c hm

private lemma split_join {ws : Char → Bool} (hp : ws '+' = false) {xs ss : List (List Char)}
    (h : List.Forall₂ (fun x s => IsName ws x ∧ Padded ws x s) xs ss) (hne : xs ≠ []) :
    (splitChar '+' (joinPlus ss)).map (strip ws) = xs := by
  induction h with
  | nil => exact absurd rfl hne
  | @cons x s xs ss h1 hrest ih =>
    cases hrest with
    | nil =>
      rw [joinPlus, splitChar_none (padded_not_mem hp h1.1.plus h1.2), List.map_singleton, strip_padded h1.1 h1.2]
    | @cons x' s' xs' ss' h2 hrest' =>
      rw [joinPlus, splitChar_cons (padded_not_mem hp h1.1.plus h1.2), List.map_cons, strip_padded h1.1 h1.2,
        ih (by simp)]

private lemma tilde_join {ws : Char → Bool} (hp : ws '~' = false) {xs ss : List (List Char)}
    (h : List.Forall₂ (fun x s => IsName ws x ∧ Padded ws x s) xs ss) : '~' ∉ joinPlus ss := by
  induction h with
  | nil => simp [joinPlus]
  | @cons x s xs ss h1 hrest ih =>
    have := padded_not_mem hp h1.1.tilde h1.2
    cases hrest with
    | nil => simpa [joinPlus] using this
    | cons h2 hrest' =>
      rw [joinPlus]
      simp only [List.mem_append, List.mem_cons, not_or]
      exact ⟨this, by decide, ih⟩

private lemma mapM_ok {α β : Type} {f : α → Except PyErr β} {l : List α} {r : List β}
    (h : List.Forall₂ (fun a b => f a = .ok b) l r) : l.mapM f = .ok r := by
  induction h with
  | nil => rfl
  | cons h1 _ ih => rw [List.mapM_cons, h1, ih]; rfl

private lemma parse_eq {ws : Char → Bool} (hw : ws '~' = false) (hp : ws '+' = false) {t st : List Char}
    {xs ss : List (List Char)} (ht : IsName ws t) (hst : Padded ws t st) (hne : xs ≠ [])
    (h : List.Forall₂ (fun x s => IsName ws x ∧ Padded ws x s) xs ss) (data : Frame) :
    parseFormula ws (st ++ '~' :: joinPlus ss) data = (data.col t).bind fun theta =>
      if none ∈ theta then .error .valueError
      else (xs.mapM data.col).bind fun cols =>
        if ∃ c ∈ cols, none ∈ c then .error .valueError else .ok (theta, cols, xs) := by
  rw [parseFormula, splitChar_cons (padded_not_mem hw ht.tilde hst), splitChar_none (tilde_join hw h)]
  simp only
  rw [strip_padded ht hst, split_join hp h hne]

/-- A formula `response ~ x + y + …`, with any whitespace around the names, fits exactly the model that is fitted to
the columns of these names given as arrays, in the order of the formula; only the names of the predictors differ. -/
theorem C121_same_fit {R : Type} {ws : Char → Bool} (hw : ws '~' = false) (hp : ws '+' = false)
    (fit : String → List ℝ → List (List ℝ) → List ℝ → ℝ → List ℝ → Except PyErr R) (a : CLArgs)
    {t st : List Char} {xs ss : List (List Char)} (ht : IsName ws t) (hst : Padded ws t st) (hne : xs ≠ [])
    (h : List.Forall₂ (fun x s => IsName ws x ∧ Padded ws x s) xs ss) {data : Frame} {theta : List ℝ}
    {cols : List (List ℝ)} (hth : data.col t = .ok (theta.map some))
    (hcols : List.Forall₂ (fun x c => data.col x = .ok (c.map some)) xs cols) :
    clConstruct ws fit { a with formula := some (st ++ '~' :: joinPlus ss), data := some data } =
      (clConstruct ws fit
        { a with
          formula := none, data := none, theta := some (theta.map some)
          X := some (.mat theta.length (cols.map (·.map some))) }).map fun r => (xs, r.2) := by
  have hm : xs.mapM data.col = .ok (cols.map (·.map some)) := by
    apply mapM_ok
    rw [List.forall₂_map_right_iff]
    exact hcols
  have hpf : parseFormula ws (st ++ '~' :: joinPlus ss) data =
      .ok (theta.map some, cols.map (·.map some), xs) := by
    rw [parse_eq hw hp ht hst hne h, hth]
    simp only [Except.bind]
    rw [if_neg (by simp), hm]
    simp only
    rw [if_neg (by simp)]
  obtain ⟨c, f, hcf⟩ : ∃ c f, st ++ '~' :: joinPlus ss = c :: f := by
    cases hs : st ++ '~' :: joinPlus ss with
    | nil => simp at hs
    | cons c f => exact ⟨c, f, rfl⟩
  rw [hcf] at hpf ⊢
  unfold clConstruct
  simp only [hpf, Except.map, Except.bind, List.length_map]
  cases prepareDesign (theta.map some) (.mat theta.length (cols.map (·.map some))) with
  | error e => rfl
  | ok d =>
    simp only
    split_ifs
    · rfl
    · cases coerceVector a.beta0 d.2.length with
      | error e => rfl
      | ok b =>
        simp only
        cases coerceVector a.gamma0 d.2.length with
        | error e => rfl
        | ok g =>
          simp only
          cases fit a.modelType d.1 d.2 b (a.alpha0.getD 0) g <;> rfl

/-- With a non-empty formula and a data frame the arguments `theta` and `X` are ignored; with an empty formula, or
without a data frame, the formula is. A vector is a matrix of one column. -/
theorem C121_precedence {R : Type} {ws : Char → Bool}
    (fit : String → List ℝ → List (List ℝ) → List ℝ → ℝ → List ℝ → Except PyErr R) (a : CLArgs) :
    (∀ f d, a.formula = some f → f ≠ [] → a.data = some d → ∀ th X,
      clConstruct ws fit a = clConstruct ws fit { a with theta := th, X := X }) ∧
    ((a.formula = none ∨ a.formula = some [] ∨ a.data = none) →
      clConstruct ws fit a = clConstruct ws fit { a with formula := none, data := none }) ∧
    ∀ x, clConstruct ws fit { a with X := some (.vec x) } = clConstruct ws fit { a with X := some (.mat x.length [x]) } := by
  refine ⟨?_, ?_, ?_⟩
  · intro f d hf hne hd th X
    cases f with
    | nil => exact absurd rfl hne
    | cons c f => simp only [clConstruct, hf, hd]
  · rintro (h | h | h)
    · unfold clConstruct
      simp only [h]
      rcases a.theta with _ | th <;> rcases a.X with _ | X <;> rfl
    · unfold clConstruct
      simp only [h]
      rcases a.theta with _ | th <;> rcases a.X with _ | X <;> rfl
    · unfold clConstruct
      simp only [h]
      rcases a.formula with _ | (_ | ⟨c, f⟩) <;> rcases a.theta with _ | th <;> rcases a.X with _ | X <;> rfl
  · intro x
    unfold clConstruct
    have hpd : ∀ th, prepareDesign th (.vec x) = prepareDesign th (.mat x.length [x]) := fun th => rfl
    rcases a.formula with _ | (_ | ⟨c, f⟩) <;> rcases a.data with _ | d <;> rcases a.theta with _ | th <;>
      simp only [Except.bind, hpd]

/-- What is refused. A formula without exactly one `~`: `ValueError`. A column that is not in the data frame, for
instance `1` for a constant: `KeyError`. Missing values: `ValueError`. No data at all: `ValueError`. -/
theorem C121_refused {R : Type} {ws : Char → Bool}
    (fit : String → List ℝ → List (List ℝ) → List ℝ → ℝ → List ℝ → Except PyErr R) (a : CLArgs) (data : Frame)
    (hd : a.data = some data) :
    (∀ f, a.formula = some f → f ≠ [] → f.count '~' ≠ 1 → clConstruct ws fit a = .error .valueError) ∧
    (∀ t st xs ss, ws '~' = false → ws '+' = false → IsName ws t → Padded ws t st → xs ≠ [] →
      List.Forall₂ (fun x s => IsName ws x ∧ Padded ws x s) xs ss → a.formula = some (st ++ '~' :: joinPlus ss) →
      (data.lookup t = none → clConstruct ws fit a = .error .keyError) ∧
      (∀ th, data.lookup t = some th →
        (none ∈ th → clConstruct ws fit a = .error .valueError) ∧
        (none ∉ th → (∃ x ∈ xs, data.lookup x = none) → clConstruct ws fit a = .error .keyError) ∧
        (none ∉ th → ∀ cols, List.Forall₂ (fun x c => data.lookup x = some c) xs cols → (∃ c ∈ cols, none ∈ c) →
          clConstruct ws fit a = .error .valueError))) ∧
    (a.formula = none → (a.theta = none ∨ a.X = none) → clConstruct ws fit a = .error .valueError) := by
  have herr : ∀ f, a.formula = some f → f ≠ [] → ∀ e, parseFormula ws f data = .error e →
      clConstruct ws fit a = .error e := by
    intro f hf hne e he
    cases f with
    | nil => exact absurd rfl hne
    | cons c f => simp only [clConstruct, hf, hd, he, Except.map, Except.bind]
  refine ⟨?_, ?_, ?_⟩
  · intro f hf hne hc
    apply herr f hf hne
    have := splitChar_length '~' f
    rw [parseFormula]
    split
    · rename_i t x he
      rw [he] at this
      simp at this
      omega
    · rfl
  · intro t st xs ss hw hp ht hst hne h hf
    have hcol : ∀ n c, data.lookup n = some c → data.col n = .ok c := fun n c hn => by rw [Frame.col, hn]
    have hcol' : ∀ n, data.lookup n = none → data.col n = .error .keyError := fun n hn => by rw [Frame.col, hn]
    have key := fun e he => herr _ hf (by simp) e he
    rw [parse_eq hw hp ht hst hne h] at key
    refine ⟨fun hl => key _ (by rw [hcol' t hl]; rfl), fun th hth => ⟨fun hn => key _ ?_, fun hn hx => key _ ?_,
      fun hn cols hc hcn => key _ ?_⟩⟩
    · rw [hcol t th hth]
      simp only [Except.bind]
      rw [if_pos hn]
    · rw [hcol t th hth]
      simp only [Except.bind]
      rw [if_neg hn]
      have : xs.mapM data.col = .error .keyError := by
        clear key herr hf h hne
        induction xs with
        | nil => simp at hx
        | cons x xs ih =>
          rw [List.mapM_cons]
          cases hlx : data.lookup x with
          | none => rw [hcol' x hlx]; rfl
          | some c =>
            rw [hcol x c hlx, ih ?_]
            · rfl
            · obtain ⟨y, hy, hy'⟩ := hx
              rcases List.mem_cons.1 hy with rfl | hy
              · rw [hlx] at hy'; cases hy'
              · exact ⟨y, hy, hy'⟩
      rw [this]
    · rw [hcol t th hth]
      simp only [Except.bind]
      rw [if_neg hn, mapM_ok (hc.imp fun x c hxc => hcol x c hxc)]
      simp only
      rw [if_pos hcn]
  · intro hf h
    unfold clConstruct
    simp only [hf]
    rcases h with h | h
    · simp only [h, Except.bind]
    · simp only [h]
      rcases a.theta with _ | th <;> rfl

private lemma mapM_ok_iff {α β : Type} {f : α → Except PyErr β} {l : List α} {r : List β} (h : l.mapM f = .ok r) :
    l.length = r.length ∧ ∀ b ∈ r, ∃ a ∈ l, f a = .ok b := by
  induction l generalizing r with
  | nil => cases h; simp
  | cons a l ih =>
    rw [List.mapM_cons] at h
    cases ha : f a with
    | error e => rw [ha] at h; cases h
    | ok b =>
      cases hl : l.mapM f with
      | error e => rw [ha, hl] at h; cases h
      | ok r' =>
        rw [ha, hl] at h
        cases h
        obtain ⟨h1, h2⟩ := ih hl
        refine ⟨by simp [h1], fun b' hb' => ?_⟩
        rcases List.mem_cons.1 hb' with rfl | hb'
        · exact ⟨a, by simp, ha⟩
        · obtain ⟨a', ha', h'⟩ := h2 b' hb'
          exact ⟨a', by simp [ha'], h'⟩

private lemma mapM_some_iff {α β : Type} {f : α → Option β} {l : List α} {r : List β} (h : l.mapM f = some r) :
    l.length = r.length ∧ ∀ b ∈ r, ∃ a ∈ l, f a = some b := by
  induction l generalizing r with
  | nil => cases h; simp
  | cons a l ih =>
    rw [List.mapM_cons] at h
    cases ha : f a with
    | none => rw [ha] at h; cases h
    | some b =>
      cases hl : l.mapM f with
      | none => rw [ha, hl] at h; cases h
      | some r' =>
        rw [ha, hl] at h
        cases h
        obtain ⟨h1, h2⟩ := ih hl
        refine ⟨by simp [h1], fun b' hb' => ?_⟩
        rcases List.mem_cons.1 hb' with rfl | hb'
        · exact ⟨a, by simp, ha⟩
        · obtain ⟨a', ha', h'⟩ := h2 b' hb'
          exact ⟨a', by simp [ha'], h'⟩

private lemma finite_some {l : List (Option ℝ)} {r : List ℝ} (h : finite l = some r) : l = r.map some := by
  induction l generalizing r with
  | nil =>
    simp only [finite, List.mapM_nil] at h
    cases h
    rfl
  | cons o l ih =>
    rw [finite, List.mapM_cons] at h
    cases o with
    | none => simp at h
    | some x =>
      cases hl : l.mapM id with
      | none => rw [hl] at h; simp at h
      | some r' =>
        rw [hl] at h
        simp at h
        rw [← h, ih hl]
        rfl

private lemma finite_map (l : List ℝ) : finite (l.map some) = some l := by
  induction l with
  | nil => rfl
  | cons x l ih =>
    rw [finite] at ih ⊢
    rw [List.map_cons, List.mapM_cons, ih]
    rfl

/-- Given arrays, the fit is that of exactly these numbers with the given model type, starting at the given values or
at zero, and the predictors are called `x0`, `x1`, …. -/
theorem C121_arrays {R : Type} {ws : Char → Bool}
    (fit : String → List ℝ → List (List ℝ) → List ℝ → ℝ → List ℝ → Except PyErr R) (a : CLArgs)
    {theta : List ℝ} {cols : List (List ℝ)} {beta gamma : List ℝ} (hf : a.formula = none)
    (hth : a.theta = some (theta.map some)) (hne : theta ≠ [])
    (hX : a.X = some (.mat theta.length (cols.map (·.map some))))
    (hm : a.modelType = "mean" ∨ a.modelType = "kappa" ∨ a.modelType = "mixed")
    (hb : a.beta0 = some (beta.map some) ∧ beta.length = cols.length ∨
      a.beta0 = none ∧ beta = List.replicate cols.length 0)
    (hg : a.gamma0 = some (gamma.map some) ∧ gamma.length = cols.length ∨
      a.gamma0 = none ∧ gamma = List.replicate cols.length 0) :
    clConstruct ws fit a = (fit a.modelType theta cols beta (a.alpha0.getD 0) gamma).map fun r =>
      ((List.range cols.length).map fun i => 'x' :: (toString i).toList, r) := by
  have hvec : ∀ (v : Option (List (Option ℝ))) (n : ℕ) (b : List ℝ),
      (v = some (b.map some) ∧ b.length = n ∨ v = none ∧ b = List.replicate n 0) → coerceVector v n = .ok b := by
    rintro v n b (⟨rfl, h⟩ | ⟨rfl, h⟩)
    · simp only [coerceVector, finite_map]
      rw [if_neg (by simpa using h)]
    · rw [h]; rfl
  have hcols : (cols.map (·.map some)).mapM finite = some cols := by
    clear hX hb hg
    induction cols with
    | nil => rfl
    | cons c cols ih => rw [List.map_cons, List.mapM_cons, finite_map, ih]; rfl
  have hpd : prepareDesign (theta.map some) (.mat theta.length (cols.map (·.map some))) = .ok (theta, cols) := by
    unfold prepareDesign
    rw [if_neg (by simpa using hne), finite_map]
    simp only
    rw [if_neg (by simp), hcols]
  unfold clConstruct
  simp only [hf, hth, hX, Except.bind, hpd]
  rw [if_neg (by tauto), hvec _ _ _ hb, hvec _ _ _ hg]
  rfl

/-- Whatever the arguments, the numerical part of the fit only ever sees a valid model type, a non-empty finite response, predictors with as many
rows as the response (for rectangular input), and starting values of the right length: `beta` and `gamma` as given,
or zero. -/
theorem C121_checked {R : Type} {ws : Char → Bool}
    (fit : String → List ℝ → List (List ℝ) → List ℝ → ℝ → List ℝ → Except PyErr R) (a : CLArgs)
    (hX : ∀ rows cols, a.X = some (.mat rows cols) → ∀ c ∈ cols, c.length = rows)
    (hD : ∀ d, a.data = some d → ∃ k, ∀ c ∈ d, c.2.length = k)
    {names : List (List Char)} {r : R} (h : clConstruct ws fit a = .ok (names, r)) :
    ∃ theta cols beta gamma, fit a.modelType theta cols beta (a.alpha0.getD 0) gamma = .ok r ∧
      (a.modelType = "mean" ∨ a.modelType = "kappa" ∨ a.modelType = "mixed") ∧ theta ≠ [] ∧
      (∀ c ∈ cols, c.length = theta.length) ∧ beta.length = cols.length ∧ gamma.length = cols.length ∧
      (∀ b, a.beta0 = some b → b = beta.map some) ∧ (a.beta0 = none → beta = List.replicate cols.length 0) ∧
      (∀ g, a.gamma0 = some g → g = gamma.map some) ∧ (a.gamma0 = none → gamma = List.replicate cols.length 0) ∧
      names.length = cols.length := by
  have bind_ok : ∀ {α β : Type} {x : Except PyErr α} {f : α → Except PyErr β} {y : β}, x.bind f = .ok y →
      ∃ v, x = .ok v ∧ f v = .ok y := by
    intro α β x f y h
    cases x with
    | error e => simp [Except.bind] at h
    | ok v => exact ⟨v, rfl, h⟩
  unfold clConstruct at h
  obtain ⟨i, hi, h⟩ := bind_ok h
  obtain ⟨d, hd, h⟩ := bind_ok h
  simp only at h
  split_ifs at h with hmt
  obtain ⟨beta, hb, h⟩ := bind_ok h
  obtain ⟨gamma, hg, h⟩ := bind_ok h
  cases hfit : fit a.modelType d.1 d.2 beta (a.alpha0.getD 0) gamma with
  | error e => rw [hfit] at h; simp [Except.map] at h
  | ok r' =>
    rw [hfit] at h
    simp only [Except.map, Except.ok.injEq, Prod.mk.injEq] at h
    obtain ⟨hnames, rfl⟩ := h
    have hvec : ∀ (v : Option (List (Option ℝ))) (n : ℕ) (b : List ℝ), coerceVector v n = .ok b →
        b.length = n ∧ (∀ w, v = some w → w = b.map some) ∧ (v = none → b = List.replicate n 0) := by
      intro v n b hv
      cases v with
      | none =>
        simp only [coerceVector, Except.ok.injEq] at hv
        rw [← hv]
        simp
      | some w =>
        simp only [coerceVector] at hv
        split_ifs at hv with hlen
        cases hw : finite w with
        | none => rw [hw] at hv; simp at hv
        | some r =>
          rw [hw] at hv
          simp only [Except.ok.injEq] at hv
          subst hv
          have := finite_some hw
          refine ⟨?_, fun w' h' => ?_, fun h' => by cases h'⟩
          · rw [this] at hlen
            simpa using hlen
          · cases h'
            exact this
    obtain ⟨b1, b2, b3⟩ := hvec _ _ _ hb
    obtain ⟨g1, g2, g3⟩ := hvec _ _ _ hg
    have hinput : (∀ rows cols, i.2.1 = .mat rows cols → ∀ c ∈ cols, c.length = rows) ∧
        ∀ ns, i.2.2 = some ns → ∃ rows cols, i.2.1 = .mat rows cols ∧ ns.length = cols.length := by
      split at hi
      · rename_i c f d hf hdd
        have hpf : ∃ r, parseFormula ws (c :: f) d = .ok r ∧ (r.1, XArg.mat r.1.length r.2.1, some r.2.2) = i := by
          cases hp : parseFormula ws (c :: f) d with
          | error e => rw [hp] at hi; simp [Except.map] at hi
          | ok r => rw [hp] at hi; exact ⟨r, rfl, by simpa [Except.map] using hi⟩
        obtain ⟨r, hr, rfl⟩ := hpf
        obtain ⟨k, hk⟩ := hD d hdd
        have hcol : ∀ n l, d.col n = .ok l → l.length = k := by
          intro n l hl
          rw [Frame.col] at hl
          split at hl
          · rename_i c' hc'
            cases hl
            obtain ⟨l₁, l₂, he, -⟩ := List.lookup_eq_some_iff.1 hc'
            exact hk (n, l) (by rw [he]; simp)
          · cases hl
        rw [parseFormula] at hr
        split at hr
        · obtain ⟨theta, hth, hr⟩ := bind_ok hr
          split_ifs at hr
          simp only at hr
          obtain ⟨cols, hcols, hr⟩ := bind_ok hr
          split_ifs at hr
          cases hr
          have hall := mapM_ok_iff hcols
          refine ⟨fun rows cs he c hc => ?_, fun ns hns => ⟨_, _, rfl, ?_⟩⟩
          · simp only [XArg.mat.injEq] at he
            obtain ⟨rfl, rfl⟩ := he
            obtain ⟨n, -, hn⟩ := hall.2 c hc
            rw [hcol n c hn, hcol _ _ hth]
          · simp only [Option.some.injEq] at hns
            rw [← hns]
            exact hall.1
        · cases hr
      · rename_i th X hX' _ _
        cases hi
        exact ⟨fun rows cols he => hX rows cols (by simp_all), fun ns hns => by simp at hns⟩
      · cases hi
    have hdes : d.1 ≠ [] ∧ (∀ c ∈ d.2, c.length = d.1.length) ∧ ∀ ns, i.2.2 = some ns → ns.length = d.2.length := by
      unfold prepareDesign at hd
      split_ifs at hd with h0
      split at hd
      · cases hd
      · rename_i th hth
        have hth' := finite_some hth
        simp only at hd
        split at hd
        · cases hd
        · rename_i rows cols hm
          split_ifs at hd with hrows
          split at hd
          · cases hd
          · rename_i cs hcs
            cases hd
            have hall := mapM_some_iff hcs
            push Not at hrows
            have hc : (∀ c ∈ cols, c.length = rows) ∧ ∀ ns, i.2.2 = some ns → ns.length = cols.length := by
              split at hm
              · rename_i x hx
                cases hm
                refine ⟨by simp, fun ns hns => ?_⟩
                obtain ⟨rows', cols', he, -⟩ := hinput.2 ns hns
                rw [hx] at he
                cases he
              · rename_i rows' cols' hx
                cases hm
                refine ⟨hinput.1 _ _ hx, fun ns hns => ?_⟩
                obtain ⟨rows', cols', he, hl⟩ := hinput.2 ns hns
                rw [hx] at he
                cases he
                exact hl
              · cases hm
            refine ⟨?_, fun c hcm => ?_, fun ns hns => by rw [hc.2 ns hns]; exact hall.1⟩
            · rintro rfl
              exact h0 (by simpa using hth')
            · obtain ⟨c', hc', he⟩ := hall.2 c hcm
              have := hc.1 c' hc'
              rw [finite_some he, List.length_map] at this
              rw [this, hrows]
    refine ⟨d.1, d.2, beta, gamma, hfit, by tauto, hdes.1, hdes.2.1, b1, g1, b2, b3, g2, g3, ?_⟩
    rw [← hnames]
    cases hns : i.2.2 with
    | none => simp [defaultNames]
    | some ns => exact hdes.2.2 ns hns

/-- C121: arrays with a matrix of two predictors; the fit gets them with starting values zero. -/
example : clConstruct (fun _ => false) (fun m th cols b al g => .ok (m, th, cols, b, al, g))
      ⟨none, none, some [some 1, some 2, some 3], some (.mat 3 [[some 0, some 1, some 5], [some 1, some 1, some 2]]),
        "mean", none, none, some [some 7, some 8]⟩ =
    .ok (["x0".toList, "x1".toList], "mean", [1, 2, 3], [[0, 1, 5], [1, 1, 2]], [0, 0], 0, [7, 8]) := by
  rw [C121_arrays (theta := [1, 2, 3]) (cols := [[0, 1, 5], [1, 1, 2]]) (beta := [0, 0]) (gamma := [7, 8]) _ _ rfl rfl
    (by simp) rfl (Or.inl rfl) (Or.inr ⟨rfl, rfl⟩) (Or.inl ⟨rfl, rfl⟩)]
  rfl

/-- Whitespace of the examples. -/
private def blank (c : Char) : Bool := c == ' '

/-- C121: `"angle ~ x + time of day"` fits the columns `x` and `time of day`. -/
example {R : Type} (fit : String → List ℝ → List (List ℝ) → List ℝ → ℝ → List ℝ → Except PyErr R) (a : CLArgs) :
    clConstruct blank fit
        { a with
          formula := some "angle ~ x + time of day".toList
          data := some [("x".toList, [some 1, some 2]), ("angle".toList, [some 3, some 0]), ("y".toList, [none, some 2]),
            ("time of day".toList, [some 5, some 4])] } =
      (clConstruct blank fit
        { a with
          formula := none, data := none, theta := some [some 3, some 0]
          X := some (.mat 2 [[some 1, some 2], [some 5, some 4]]) }).map
        fun r => (["x".toList, "time of day".toList], r.2) := by
  have hname : ∀ s ∈ ["x".toList, "angle".toList, "time of day".toList], IsName blank s := by
    intro s hs
    simp only [List.mem_cons, List.not_mem_nil, or_false] at hs
    rcases hs with rfl | rfl | rfl <;> exact ⟨by decide, by decide, by decide, by decide⟩
  have := C121_same_fit (ws := blank) (by decide) (by decide) fit a (t := "angle".toList) (st := "angle ".toList)
    (xs := ["x".toList, "time of day".toList]) (ss := [" x ".toList, " time of day".toList])
    (hname _ (by simp)) ⟨[], [' '], by decide, by decide, by decide⟩ (by simp)
    (.cons ⟨hname _ (by simp), [' '], [' '], by decide, by decide, by decide⟩
      (.cons ⟨hname _ (by simp), [' '], [], by decide, by decide, by decide⟩ .nil))
    (data := [("x".toList, [some 1, some 2]), ("angle".toList, [some 3, some 0]), ("y".toList, [none, some 2]),
            ("time of day".toList, [some 5, some 4])]) (theta := [3, 0]) (cols := [[1, 2], [5, 4]])
    (by simp [Frame.col, List.lookup]) (.cons (by simp [Frame.col, List.lookup]) (.cons (by simp [Frame.col, List.lookup]) .nil))
  exact this

/-- C121: `"angle ~ 1"` raises `KeyError`, `"angle ~ x ~ y"` `ValueError`. -/
example {R : Type} (fit : String → List ℝ → List (List ℝ) → List ℝ → ℝ → List ℝ → Except PyErr R) (a : CLArgs)
    (hd : a.data = some [("x".toList, [some 1, some 2]), ("angle".toList, [some 3, some 0])]) :
    (a.formula = some "angle ~ 1".toList → clConstruct blank fit a = .error .keyError) ∧
      (a.formula = some "angle ~ x ~ y".toList → clConstruct blank fit a = .error .valueError) := by
  have h := C121_refused (ws := blank) fit a _ hd
  refine ⟨fun hf => ?_, fun hf => h.1 _ hf (by decide) (by decide)⟩
  exact ((h.2.1 "angle".toList "angle ".toList ["1".toList] [" 1".toList] (by decide) (by decide)
    ⟨by decide, by decide, by decide, by decide⟩ ⟨[], [' '], by decide, by decide, by decide⟩ (by simp)
    (.cons ⟨⟨by decide, by decide, by decide, by decide⟩, [' '], [], by decide, by decide, by decide⟩ .nil) hf).2
    [some 3, some 0] (by simp [List.lookup])).2.1 (by simp) ⟨"1".toList, by simp, by simp [List.lookup]⟩

end Verif.Props
